{"id": "C01", "title": "is_dag decides acyclicity", "statement": "is_dag(A) returns True exactly when the directed graph {i->j : A[i,j]!=0} has no directed cycle (self-loops and two-cycles i-j included as cycles), for every matrix with non-negative entries; it always returns, and the answer does not depend on the order in which Python iterates over sets.", "quantifier": "all sizes p, all non-negative p x p matrices, all set iteration orders", "why_tests_cant": "there are infinitely many graphs and the hash-set iteration order is an implementation detail the tests fix by accident", "anchors": ["utlvce/utils.py:is_dag", "utlvce/utils.py:topological_ordering"]}
{"id": "C02", "title": "topological_ordering is a topological order", "statement": "topological_ordering(A) returns a list containing every node exactly once with the source of every edge before its target, or raises ValueError; it raises exactly when the graph has a directed cycle.", "quantifier": "all sizes, all non-negative matrices, all set iteration orders", "why_tests_cant": "tests compare a handful of orderings; correctness of Kahn's loop is an invariant over all graphs", "anchors": ["utlvce/utils.py:topological_ordering"]}
{"id": "C03", "title": "Node relations partition adjacency", "statement": "For every matrix, neighbors(i), pa(i), ch(i) are pairwise disjoint, their union is adj(i), j in pa(i) iff i in ch(j), j in neighbors(i) iff i in neighbors(j), and na(y,x) is neighbors(y) & adj(x).", "quantifier": "all sizes, all matrices, all nodes", "why_tests_cant": "universal statement about set algebra over all graphs", "anchors": ["utlvce/utils.py:pa", "utlvce/utils.py:ch", "utlvce/utils.py:neighbors", "utlvce/utils.py:adj", "utlvce/utils.py:na"]}
{"id": "C04", "title": "Directed/undirected decomposition", "statement": "Every PDAG is the entrywise sum of only_directed(P) and only_undirected(P), whose supports are disjoint; weights are kept; directed_edges/undirected_edges list each directed edge once and each undirected edge once as (i,j) with i>j; edge_weights maps exactly the non-zero entries.", "quantifier": "all sizes, all matrices", "why_tests_cant": "universal statement over all matrices", "anchors": ["utlvce/utils.py:only_directed", "utlvce/utils.py:only_undirected", "utlvce/utils.py:undirected_edges", "utlvce/utils.py:directed_edges", "utlvce/utils.py:edge_weights"]}
{"id": "C05", "title": "vstructures is exact", "statement": "vstructures(A) contains (i,c,j) iff i<j, i->c<-j are directed edges and i,j are not adjacent.", "quantifier": "all sizes, all matrices, all set iteration orders", "why_tests_cant": "universal over graphs; itertools.combinations order comes from a hash set", "anchors": ["utlvce/utils.py:vstructures"]}
{"id": "C06", "title": "is_clique and is_complete decide pairwise adjacency", "statement": "For graphs without self loops and non-negative entries, is_clique(S,A) is True iff every two distinct nodes of S are adjacent; is_complete(P) iff every two distinct nodes are adjacent.", "quantifier": "all sizes, node sets, matrices", "why_tests_cant": "counting argument over all sets", "anchors": ["utlvce/utils.py:is_clique", "utlvce/utils.py:is_complete"]}
{"id": "C07", "title": "semi_directed_paths enumerates exactly the simple semi-directed paths", "statement": "semi_directed_paths(a,b,A) terminates and returns each non-repeating sequence of nodes from a to b following directed or undirected edges forward exactly once, and nothing else.", "quantifier": "all sizes, self-loop-free graphs, node pairs, set iteration orders", "why_tests_cant": "exponentially many paths per graph; DFS stack discipline must hold for all", "anchors": ["utlvce/utils.py:semi_directed_paths"]}
{"id": "C08", "title": "separates is exact", "statement": "separates(S,A,B,G) raises ValueError iff the sets are not pairwise disjoint, and otherwise returns True iff every semi-directed walk from a node of A to a node of B meets S.", "quantifier": "all sizes, graphs, node sets", "why_tests_cant": "universal over graphs and sets", "anchors": ["utlvce/utils.py:separates", "utlvce/utils.py:semi_directed_paths"]}
{"id": "C09", "title": "chain_component is the undirected connected component", "statement": "chain_component(i,G) terminates and returns exactly the nodes reachable from i through undirected edges.", "quantifier": "all sizes, graphs, nodes, set iteration orders", "why_tests_cant": "the loop rebinds the set it iterates over; correctness for all orders is an invariant", "anchors": ["utlvce/utils.py:chain_component"]}
{"id": "C10", "title": "induced_subgraph keeps exactly the edges inside S", "statement": "induced_subgraph(S,G)[i,j] is G[i,j] when i and j are both in S and 0 otherwise.", "quantifier": "all sizes, graphs, node sets", "why_tests_cant": "universal", "anchors": ["utlvce/utils.py:induced_subgraph"]}
{"id": "C11", "title": "moral_graph marries parents", "statement": "For every DAG A and i != j, moral_graph(A)[i,j] is 1 iff i and j are adjacent or have a common child, else 0; the matrix is symmetric; degrees(A)[j] is the number of nodes adjacent to j.", "quantifier": "all DAGs", "why_tests_cant": "universal", "anchors": ["utlvce/utils.py:moral_graph", "utlvce/utils.py:degrees", "utlvce/utils.py:skeleton"]}
{"id": "C12", "title": "is_consistent_extension is exact", "statement": "is_consistent_extension(G,P) raises ValueError iff G is not a DAG, and otherwise returns True iff G and P have the same skeleton, the same v-structures, and G has every directed edge of P.", "quantifier": "all sizes, pairs of graphs", "why_tests_cant": "universal over pairs of graphs", "anchors": ["utlvce/utils.py:is_consistent_extension"]}
{"id": "C13", "title": "pdag_to_dag returns a consistent extension", "statement": "Whenever pdag_to_dag(P) returns, the result is a DAG that is a consistent extension of P (same skeleton, same v-structures, keeps all directed edges).", "quantifier": "all self-loop-free PDAGs of any size", "why_tests_cant": "greedy elimination must be right on every graph; a published version of it was wrong only on rare graphs", "anchors": ["utlvce/utils.py:pdag_to_dag"]}
{"id": "C14", "title": "pdag_to_dag fails only when no extension exists", "statement": "pdag_to_dag(P) raises ValueError iff P admits no consistent extension.", "quantifier": "all self-loop-free PDAGs of any size", "why_tests_cant": "requires a statement about every possible extension, and that the greedy choice never paints itself into a corner", "anchors": ["utlvce/utils.py:pdag_to_dag"]}
{"id": "C15", "title": "order_edges produces a valid total order", "statement": "For every DAG G, order_edges(G) terminates and labels the edges of G bijectively with 1..|E|, leaving non-edges 0; it raises ValueError iff G is not a DAG; and label_edges accepts its output.", "quantifier": "all DAGs", "why_tests_cant": "universal", "anchors": ["utlvce/utils.py:order_edges", "utlvce/utils.py:label_edges", "utlvce/utils.py:sort"]}
{"id": "C16", "title": "Edges marked compelled are compelled", "statement": "If dag_to_cpdag(G) contains i->j as a directed edge then every DAG Markov equivalent to G (same skeleton and v-structures) contains i->j.", "quantifier": "all DAGs G and all DAGs equivalent to it", "why_tests_cant": "quantifies over the whole equivalence class", "anchors": ["utlvce/utils.py:dag_to_cpdag", "utlvce/utils.py:label_edges"]}
{"id": "C17", "title": "dag_to_cpdag is the essential graph", "statement": "dag_to_cpdag(G)[i,j] is 1 iff some DAG Markov equivalent to G contains i->j, and is 0 otherwise.", "quantifier": "all DAGs", "why_tests_cant": "needs existence of an equivalent DAG reversing each undirected edge", "anchors": ["utlvce/utils.py:dag_to_cpdag", "utlvce/utils.py:order_edges", "utlvce/utils.py:label_edges"]}
{"id": "C18", "title": "CPDAG identifies the equivalence class", "statement": "For DAGs G,H: dag_to_cpdag(G)=dag_to_cpdag(H) iff G and H have the same skeleton and v-structures.", "quantifier": "all pairs of DAGs", "why_tests_cant": "universal over pairs", "anchors": ["utlvce/utils.py:dag_to_cpdag"]}
{"id": "C19", "title": "pdag_to_cpdag completes the PDAG", "statement": "pdag_to_cpdag(P) raises ValueError iff P has no consistent extension; otherwise it equals dag_to_cpdag(H) for every consistent extension H of P, and it is idempotent on CPDAGs.", "quantifier": "all PDAGs", "why_tests_cant": "universal", "anchors": ["utlvce/utils.py:pdag_to_cpdag"]}
{"id": "C20", "title": "maximally_orient is sound and closed", "statement": "maximally_orient(P) raises ValueError iff P has no consistent extension; otherwise it terminates, the result has exactly the same consistent extensions as P, and no Meek rule 1-4 applies to any remaining undirected edge.", "quantifier": "all PDAGs", "why_tests_cant": "orientation order is data-dependent; must preserve the extension set in every order", "anchors": ["utlvce/utils.py:maximally_orient", "utlvce/utils.py:rule_1", "utlvce/utils.py:rule_2", "utlvce/utils.py:rule_3", "utlvce/utils.py:rule_4"]}
{"id": "C21", "title": "dag_to_icpdag is the interventional essential graph", "statement": "For every DAG G and target set I, dag_to_icpdag(G,I) never raises and its entry [i,j] is 1 iff some DAG equivalent to G with the same parents as G at every target contains i->j (0 otherwise), whatever the iteration order of the sets.", "quantifier": "all DAGs, all target sets, all set iteration orders", "why_tests_cant": "quantifies over interventional equivalence classes", "anchors": ["utlvce/utils.py:dag_to_icpdag", "utlvce/utils.py:maximally_orient"]}
{"id": "C22", "title": "Boundary target sets of dag_to_icpdag", "statement": "With I empty dag_to_icpdag(G,I) is dag_to_cpdag(G); with I all nodes it is the 0/1 adjacency of G; enlarging I never removes an orientation.", "quantifier": "all DAGs, all target sets", "why_tests_cant": "universal", "anchors": ["utlvce/utils.py:dag_to_icpdag"]}
{"id": "C23", "title": "all_dags enumerates the consistent extensions", "statement": "For every 0/1 self-loop-free PDAG that has an undirected edge or is a DAG, all_dags(P) raises nothing and returns every consistent extension of P exactly once and nothing else.", "quantifier": "all 0/1 PDAGs", "why_tests_cant": "exponential enumeration", "anchors": ["utlvce/utils.py:all_dags", "utlvce/utils.py:cartesian", "utlvce/utils.py:is_consistent_extension"]}
{"id": "C24", "title": "mec is the Markov equivalence class", "statement": "mec(A) raises ValueError iff A is not a DAG; otherwise it returns exactly the 0/1 adjacency matrices of DAGs Markov equivalent to A, each once.", "quantifier": "all DAGs with at least one node", "why_tests_cant": "exponential enumeration", "anchors": ["utlvce/utils.py:mec", "utlvce/utils.py:all_dags", "utlvce/utils.py:dag_to_cpdag"]}
{"id": "C25", "title": "Chain-graph shortcut agrees with the general algorithm", "statement": "For every chain length p>=1, chain_graph_MEC(p) is exactly the Markov equivalence class of chain_graph(p) (each member once, p members), so mec(A,check_chain=True) and mec(A,check_chain=False) return the same set of graphs.", "quantifier": "all p>=1", "why_tests_cant": "tests check a few p; the general algorithm is exponential in p", "anchors": ["utlvce/utils.py:chain_graph_MEC", "utlvce/utils.py:mec", "utlvce/utils.py:chain_graph", "utlvce/utils.py:is_chain_graph"]}
{"id": "C26", "title": "imec is the interventional equivalence class", "statement": "imec(A,I) raises ValueError iff A is not a DAG or I is not a subset of the nodes; otherwise it returns exactly the 0/1 adjacencies of DAGs equivalent to A with the same parents at every target, each once, with or without the chain shortcut.", "quantifier": "all DAGs with at least one node, all target sets", "why_tests_cant": "universal over classes", "anchors": ["utlvce/utils.py:imec", "utlvce/utils.py:chain_graph_IMEC", "utlvce/utils.py:dag_to_icpdag", "utlvce/utils.py:all_dags"]}
{"id": "C27", "title": "pdag_to_icpdag", "statement": "pdag_to_icpdag(P,I) raises ValueError iff some target has an undirected edge in P or P has no consistent extension; otherwise it equals dag_to_icpdag(H,I) for every consistent extension H of P.", "quantifier": "all PDAGs, target sets", "why_tests_cant": "universal", "anchors": ["utlvce/utils.py:pdag_to_icpdag"]}
{"id": "C28", "title": "add_edges adds exactly the requested edges", "statement": "For every DAG A and n not larger than the number of missing edges, add_edges(A,n) returns a DAG that contains A and has exactly n more edges, for every shuffle; its internal assertion never fails; for larger n it raises ValueError.", "quantifier": "all DAGs, n, all random shuffles", "why_tests_cant": "quantifies over all permutations produced by the random generator", "anchors": ["utlvce/utils.py:add_edges"]}
{"id": "C29", "title": "remove_edges removes exactly the requested edges", "statement": "remove_edges(A,n) raises ValueError iff A has fewer than n directed edges; otherwise the result is a 0/1 subgraph of A missing exactly n directed edges, and is a DAG when A is.", "quantifier": "all matrices, n, all random choices", "why_tests_cant": "quantifies over all random choices", "anchors": ["utlvce/utils.py:remove_edges"]}
{"id": "C30", "title": "Supergraph tests", "statement": "For 0/1 matrices is_supergraph(sup,A) is True iff every edge of A is an edge of sup; has_subgraph/has_supergraph quantify it over lists.", "quantifier": "all 0/1 matrices", "why_tests_cant": "universal", "anchors": ["utlvce/utils.py:is_supergraph", "utlvce/utils.py:has_subgraph", "utlvce/utils.py:has_supergraph"]}
{"id": "C31", "title": "sort/subsets/cartesian/member/all_but list utilities", "statement": "sort(L,order) is a permutation of L ordered by position in order; subsets(S) lists every subset of S exactly once by non-decreasing size; cartesian lists the product exactly once in lexicographic order; member returns the first index; all_but(k,p) is [0..p-1] without k in order.", "quantifier": "all inputs", "why_tests_cant": "universal", "anchors": ["utlvce/utils.py:sort", "utlvce/utils.py:subsets", "utlvce/utils.py:cartesian", "utlvce/utils.py:member", "utlvce/utils.py:all_but", "utlvce/utils.py:sorted_tuple"]}
{"id": "C32", "title": "split_data folds are disjoint parts of each sample", "statement": "split_data raises ValueError iff the ratios do not sum to 1; otherwise it returns one list per ratio, each with one array per environment; within an environment the folds are consecutive, non-overlapping pieces of one permutation of the observations, so no observation is used in two folds; and fold i has round(n*ratio_i) observations unless the sample is exhausted.", "quantifier": "all data, ratios, all shuffles", "why_tests_cant": "quantifies over all shuffles and sizes", "anchors": ["utlvce/utils.py:split_data"]}
{"id": "C33", "title": "split_data covers all the data (violated)", "statement": "Documented intent: every observation is allocated to some fold. The code drops observations when rounding leaves a remainder (the last-fold branch is unreachable).", "quantifier": "all sample sizes", "why_tests_cant": "rounding corner cases", "anchors": ["utlvce/utils.py:split_data"]}
{"id": "C34", "title": "Model constructor accepts exactly valid parameters", "statement": "Model(A,B,gamma,omegas,psis) succeeds iff A and B have the same shape, A is a DAG, B is zero wherever A is, gamma/omegas/psis are two-dimensional and their dimensions agree; otherwise it raises ValueError.", "quantifier": "all parameter shapes and values", "why_tests_cant": "universal over shapes", "anchors": ["utlvce/model.py:Model.__init__"]}
{"id": "C35", "title": "Covariances are well defined for every model", "statement": "For every constructed model I-B^T is invertible with determinant 1, so covariances() never hits a singular matrix, and each returned matrix C satisfies (I-B^T) C (I-B^T)^T = gamma^T diag(psi) gamma + diag(omega).", "quantifier": "all models over exact reals", "why_tests_cant": "acyclicity must imply nilpotency for all graphs", "anchors": ["utlvce/model.py:Model.covariances", "utlvce/model.py:Model.noise_term_covariances"]}
{"id": "C36", "title": "Covariances are symmetric positive definite", "statement": "If all omegas are positive and all psis non-negative, each noise-term covariance and each entailed covariance is symmetric positive definite, so inv_noise_term_covariances() is defined and is its inverse.", "quantifier": "all such models", "why_tests_cant": "universal over real parameters", "anchors": ["utlvce/model.py:Model.noise_term_covariances", "utlvce/model.py:Model.inv_noise_term_covariances", "utlvce/model.py:Model.covariances"]}
{"id": "C37", "title": "Score is the sample-size-weighted Gaussian likelihood (violated for several environments)", "statement": "Documented intent: the score averages, weighted by n_obs, -log det M_e + tr(M_e (I-B^T) S_e (I-B^T)^T). The code divides the running sum by sum(n_obs) inside the loop; the property holds for one environment only and the score depends on the order of environments.", "quantifier": "all models and samples", "why_tests_cant": "needs algebra over all environments", "anchors": ["utlvce/model.py:Model.score"]}
{"id": "C38", "title": "Per-environment score is the Gaussian negative log-likelihood", "statement": "For one environment the score equals log det(C) + tr(C^-1 S) with C the covariance entailed by the model, and over all S positive definite it is minimised exactly when C = S (score >= log det S + p).", "quantifier": "all single-environment models", "why_tests_cant": "analytic inequality over all matrices", "anchors": ["utlvce/model.py:Model.score", "utlvce/model.py:Model.covariances"]}
{"id": "C39", "title": "sample validates n_obs", "statement": "sample(n_obs) raises TypeError for non int/list or non-int entries, ValueError for non-positive numbers, wrong length, or single observations with compute_covs; otherwise returns one sample per environment with the requested number of rows, and the returned n_obs is the requested one.", "quantifier": "all n_obs values, models", "why_tests_cant": "universal over inputs", "anchors": ["utlvce/model.py:Model.sample"]}
{"id": "C40", "title": "copy and constructor isolate state", "statement": "copy() returns a model with equal parameters whose later mutation does not affect the original and vice versa; the stored parameters are not affected by later mutation of the arguments.", "quantifier": "all models, all later writes", "why_tests_cant": "aliasing is over all histories", "anchors": ["utlvce/model.py:Model.copy", "utlvce/model.py:Model.__init__"]}
{"id": "C41", "title": "Cache behaves as a finite map", "statement": "After any sequence of reads and checked writes, the score cache holds at most one entry per (A,I); read returns the value of the unique successful write for that key, None if there is none; a checked write to a stored key raises ValueError and changes nothing; the internal uniqueness exception is unreachable.", "quantifier": "all operation histories", "why_tests_cant": "histories are unbounded", "anchors": ["utlvce/score.py:_Cache"]}
{"id": "C42", "title": "score_dag memoisation is transparent", "statement": "Without init_model, for any history of score_dag calls, each call returns what the first call with the same (A,I) computed, and with a deterministic fit this equals the uncached result.", "quantifier": "all call histories", "why_tests_cant": "histories are unbounded", "anchors": ["utlvce/score.py:Score.score_dag", "utlvce/score.py:_Cache"]}
{"id": "C43", "title": "init_model breaks memoisation (violated transparency)", "statement": "Calling score_dag with init_model stores its result so that later plain calls for the same pair return it, and raises ValueError if the pair was already scored.", "quantifier": "all histories mixing init_model", "why_tests_cant": "history dependence", "anchors": ["utlvce/score.py:Score.score_dag", "utlvce/score.py:_Cache.write"]}
{"id": "C44", "title": "score_dag iteration bounds", "statement": "The alternating optimisation performs at most max_iter iterations and at most max_fluctuations fluctuations; with max_iter=0 or max_fluctuations=0 score_dag does not return a model but fails with UnboundLocalError.", "quantifier": "all settings, all solver behaviours", "why_tests_cant": "loop bound over all solver behaviours", "anchors": ["utlvce/score.py:Score.score_dag"]}
{"id": "C45", "title": "Fitted B respects the DAG", "statement": "Every B returned by the solvers (grad, adaptive, cvx) and every model returned by score_dag has B[i,j]=0 wherever A[i,j]=0 and model.A=A, whatever the data and the random initialisation, for grad provided that some initial weight exceeds the tolerance 1e-10 (with all initial weights zero it returns the identity matrix).", "quantifier": "all DAGs, data, random initialisations", "why_tests_cant": "numerical path is data dependent", "anchors": ["utlvce/score.py:_solve_for_B_grad", "utlvce/score.py:_solve_for_B_adaptive", "utlvce/score.py:_solve_for_B_cvx", "utlvce/score.py:Score.score_dag"]}
{"id": "C46", "title": "Variances of non-targets are equal across environments", "statement": "Every model returned by score_dag(A,I) (no init_model) has, for each j not in I, the same omega[k,j] in all environments k.", "quantifier": "all data, targets, iterations", "why_tests_cant": "invariant through unboundedly many gradient steps", "anchors": ["utlvce/score.py:_solve_for_rest", "utlvce/score.py:_initialize_omegas", "utlvce/score.py:Score.score_dag"]}
{"id": "C47", "title": "Fitted variances stay strictly inside their bounds", "statement": "Every model returned by score_dag has omegas > 0 and 0 < psis (< psi_max when given).", "quantifier": "all data, iterations", "why_tests_cant": "invariant through unboundedly many gradient steps", "anchors": ["utlvce/score.py:_solve_for_rest", "utlvce/score.py:_gradient_descent", "utlvce/score.py:_is_within_bounds"]}
{"id": "C48", "title": "psi_fixed makes latent variances equal across environments", "statement": "With psi_fixed=True every model returned by score_dag without init_model has psis[k,l] the same in all environments k, for each latent l; with init_model this holds for the latents for which it holds in the given model.", "quantifier": "all data, iterations", "why_tests_cant": "invariant through unboundedly many gradient steps", "anchors": ["utlvce/score.py:_solve_for_rest", "utlvce/score.py:_initialize_psis"]}
{"id": "C49", "title": "psi_max <= 1 is unusable", "statement": "If psi_max <= 1 and there is a latent variable and an environment, fitting never returns a model, and it raises ValueError for all inputs for which it would return with another psi_max by C71 (the initial value 1 violates the strict bound).", "quantifier": "all data, psi_max<=1", "why_tests_cant": "universal", "anchors": ["utlvce/score.py:_solve_for_rest", "utlvce/score.py:_initialize_psis", "utlvce/score.py:_gradient_descent"]}
{"id": "C50", "title": "Gradient descent never worsens the loss", "statement": "_gradient_descent returns (X, loss) with loss = loss_fun(X) <= loss_fun(X_init) and X strictly inside the bounds, for any gradient function; it raises ValueError iff X_init is outside its bounds or the bounds are inverted.", "quantifier": "all loss and gradient functions", "why_tests_cant": "universal over functions and iterations", "anchors": ["utlvce/score.py:_gradient_descent", "utlvce/score.py:_is_within_bounds"]}
{"id": "C51", "title": "Gradient descent terminates", "statement": "In exact arithmetic, if the loss is bounded below, the threshold is positive, and the bounds are open, _gradient_descent returns after finitely many iterations.", "quantifier": "all losses bounded below, all gradients", "why_tests_cant": "termination over all inputs", "anchors": ["utlvce/score.py:_gradient_descent"]}
{"id": "C52", "title": "Returned score/model coherence (stale I_B)", "statement": "score_dag's returned score equals model.score(data) of the returned object; but the returned object still uses the previous iteration's B in its score, so a cached copy returned later can score differently: the property 'hit and miss return models with equal scores' is violated.", "quantifier": "all fits", "why_tests_cant": "state carried across iterations", "anchors": ["utlvce/score.py:Score.score_dag", "utlvce/model.py:Model.score", "utlvce/model.py:Model.copy"]}
{"id": "C53", "title": "Initialisation respects the DAG and constraints", "statement": "_initialize_B is supported on A and solves the normal equations of the regression of each node on its parents; _initialize_omegas is constant across environments for non-targets and positive for positive-definite covariances; init values other than obs/avg raise ValueError. The initial model of score_dag has the graph A, the regression weights for the average covariance, latent effects belonging to the largest singular values of the residual covariance, the residual variances (averaged at non-targets) and unit latent variances.", "quantifier": "all data, DAGs", "why_tests_cant": "universal", "anchors": ["utlvce/score.py:_initialize_B", "utlvce/score.py:_initialize_omegas", "utlvce/score.py:_initialize_gamma", "utlvce/score.py:_initialize_psis", "utlvce/score.py:_regress"]}
{"id": "C54", "title": "_best_scoring returns the first minimum", "statement": "For every non-empty list of tuples it returns an element with the smallest score, the first such, when no score is NaN; a NaN score is always preferred.", "quantifier": "all lists", "why_tests_cant": "universal", "anchors": ["utlvce/main.py:_best_scoring"]}
{"id": "C55", "title": "Graph pruning explores a nested chain of subgraphs", "statement": "With prune_edges, for each candidate graph the considered DAGs form a strictly decreasing chain from the candidate to the empty graph removing exactly one edge at a time (|E|+1 models), provided no fitted B vanishes on a non-empty DAG; without, exactly the candidates are considered; all graphs considered are DAGs.", "quantifier": "all candidates and fits", "why_tests_cant": "depends on fitted weights at each step", "anchors": ["utlvce/main.py:_prune_graphs", "utlvce/main.py:_weakest_edge"]}
{"id": "C56", "title": "Graph pruning can loop forever (violated termination)", "statement": "If a fitted B is identically zero on a non-empty DAG, the pruning loop never terminates.", "quantifier": "all such fits", "why_tests_cant": "non-termination cannot be observed by tests", "anchors": ["utlvce/main.py:_prune_graphs", "utlvce/main.py:_weakest_edge"]}
{"id": "C57", "title": "Target pruning explores nested target sets", "statement": "_prune_I yields p+1 models whose target sets go from all variables to none removing one variable at a time, in the order of increasing variance; with a threshold it yields exactly the variables whose variance exceeds threshold*max.", "quantifier": "all fits", "why_tests_cant": "universal", "anchors": ["utlvce/main.py:_prune_I"]}
{"id": "C58", "title": "Latent number selection", "statement": "The selected number of latents attains the smallest validation score among the candidates, ties resolved towards the smallest number, and the selection never compares arrays. This is for scores that are numbers; with NaN among them the order of the others can stay hidden: of the scores 2, NaN, 1 the first is selected.", "quantifier": "all candidate lists and scores", "why_tests_cant": "tie behaviour over all inputs", "anchors": ["utlvce/main.py:_fit"]}
{"id": "C59", "title": "equivalence_class output is coherent", "statement": "Whenever equivalence_class returns (icpdag, I, model): I is a subset of the variables, model.A is a DAG that is one of the candidates (or, with prune_edges, a subgraph of one), and icpdag is the interventional essential graph of (model.A, I), so model.A is a consistent extension of icpdag.", "quantifier": "all inputs, fits", "why_tests_cant": "end-to-end over all data", "anchors": ["utlvce/main.py:equivalence_class", "utlvce/main.py:_fit"]}
{"id": "C60", "title": "random_state of the public API is ignored (violated)", "statement": "Documented intent: random_state controls the split. The result of equivalence_class / equivalence_class_w_ges does not depend on random_state at all.", "quantifier": "all inputs", "why_tests_cant": "universal", "anchors": ["utlvce/main.py:equivalence_class", "utlvce/main.py:equivalence_class_w_ges"]}
{"id": "C61", "title": "GES wrapper equals equivalence_class on GES output", "statement": "equivalence_class_w_ges(data) returns what equivalence_class(D,data,prune_edges=True) returns when D is the list of consistent extensions of the CPDAG GES finds on the pooled training fold.", "quantifier": "all data, GES outputs", "why_tests_cant": "universal", "anchors": ["utlvce/main.py:equivalence_class_w_ges", "utlvce/main.py:_fit_ges", "utlvce/main.py:_fit"]}
{"id": "C62", "title": "Generated models are valid", "statement": "sample_parameters raises ValueError iff A is not a DAG or I is not a subset of the nodes; otherwise it returns a Model with e environments, num_latent latents and adjacency A, never failing in the Model constructor, for every random outcome.", "quantifier": "all DAGs, parameters, random outcomes", "why_tests_cant": "quantifies over random outcomes", "anchors": ["utlvce/generators.py:sample_parameters"]}
{"id": "C63", "title": "Generated non-targets are constant and targets differ as documented (interval violated)", "statement": "In every generated model variables outside I have the same variance in all environments; with obs=True the observational variances lie in [var_lo,var_hi]. The documented interval [var_lo+int_var_lo, var_hi+int_var_hi] for targets holds for a single target only: with several targets the intervention is added repeatedly.", "quantifier": "all parameters, random outcomes, set orders", "why_tests_cant": "quantifies over random outcomes", "anchors": ["utlvce/generators.py:sample_parameters"]}
{"id": "C64", "title": "intervention_targets", "statement": "intervention_targets(p,n) returns exactly n distinct indices below p; with a tuple (lo,hi) it returns between lo and hi-1 (the documented upper end is never attained); ValueError when more than p are requested.", "quantifier": "all p, n, random outcomes", "why_tests_cant": "quantifies over random outcomes", "anchors": ["utlvce/generators.py:intervention_targets"]}
{"id": "C65", "title": "Random graphs are DAGs", "statement": "_dag_avg_deg returns a DAG, with the returned ordering a topological order, for every random outcome, and random_graph_model/chain_graph_model therefore never fail on their graph. The exception is a single node, for which _dag_avg_deg and random_graph_model raise ZeroDivisionError.", "quantifier": "all sizes, random outcomes", "why_tests_cant": "quantifies over random outcomes", "anchors": ["utlvce/generators.py:_dag_avg_deg", "utlvce/generators.py:random_graph_model", "utlvce/generators.py:chain_graph_model", "utlvce/utils.py:chain_graph"]}
{"id": "C66", "title": "Scree selection range", "statement": "_scree_selection returns a number between 1 and p-1 for p>=3 and raises for p<=2.", "quantifier": "all covariances", "why_tests_cant": "universal", "anchors": ["utlvce/main.py:_scree_selection"]}
{"id": "C67", "title": "Score constructor validation", "statement": "Score(data,...) raises TypeError for data that is not a list of arrays or a pair of arrays, ValueError for different numbers of variables, single-observation samples or an unknown B_solver, and otherwise succeeds storing one covariance per environment.", "quantifier": "all inputs", "why_tests_cant": "universal", "anchors": ["utlvce/score.py:Score.__init__"]}
{"id": "C68", "title": "is_stable_set is unusable (violated)", "statement": "is_stable_set never returns: the d-separation routine it calls does not exist in the module.", "quantifier": "all inputs", "why_tests_cant": "dead code path not covered", "anchors": ["utlvce/utils.py:is_stable_set"]}
{"id": "C69", "title": "Negative weights break is_dag (boundary of C01)", "statement": "For matrices with negative entries is_dag can accept a cyclic graph and topological_ordering can return a list with repeated nodes; C01/C02 need the sign hypothesis.", "quantifier": "existence of matrices", "why_tests_cant": "delimits the hypothesis of C01/C02", "anchors": ["utlvce/utils.py:is_dag", "utlvce/utils.py:topological_ordering"]}
{"id": "C70", "title": "Factorization of a graph", "statement": "to_factorization(A) raises ValueError if A is not a DAG; otherwise it lists, for each variable in order, the pair of the variable and its parents in increasing order, and determines the edges of A: two graphs with equal factorizations have the same parents everywhere.", "quantifier": "all matrices", "why_tests_cant": "universal", "anchors": ["utlvce/utils.py:to_factorization"]}
{"id": "C71", "title": "score_dag returns", "statement": "For a DAG over at least one variable, positive definite sample covariances, at most as many latents as variables, a positive score threshold, positive iteration and fluctuation limits and psi_max absent or above 1, score_dag with B_solver='cvx' returns a model and a numeric score, whatever the learning rate and the intervention targets, provided the convex solver returns a solution satisfying the sparsity constraint.", "quantifier": "all graphs, targets, data, configurations", "why_tests_cant": "total correctness of nested unbounded loops; tests cannot exclude divergence or exceptions", "anchors": ["utlvce/score.py:Score.score_dag", "utlvce/score.py:_gradient_descent", "utlvce/score.py:_initialize_B"]}
{"id": "C72", "title": "equivalence_class returns", "statement": "With B_solver='cvx', a non-empty list of candidate DAGs, a non-empty list of numbers of latents not above the number of variables and positive definite sample covariances in all three folds, equivalence_class returns (neither raises nor runs forever) without prune_edges, and with prune_edges whenever no graph with edges is fitted with zero weights.", "quantifier": "all data, candidates, numbers of latents, parameters", "why_tests_cant": "termination and absence of exceptions over all inputs", "anchors": ["utlvce/main.py:equivalence_class", "utlvce/main.py:_fit"]}
{"id": "C73", "title": "Generators ignore random_state, and obs for chains (violated)", "statement": "Documented intent: obs and random_state control the generated model. chain_graph_model returns the same model whatever obs and random_state are; random_graph_model's random_state affects the graph only, the parameters being always drawn with seed 42 (obs is passed on); sample_parameters itself does depend on both.", "quantifier": "all parameters, random outcomes", "why_tests_cant": "universal; a test with the default arguments cannot notice", "anchors": ["utlvce/generators.py:chain_graph_model", "utlvce/generators.py:random_graph_model"]}
{"id": "C74", "title": "Intervention strength measures change of variance", "statement": "intervention_strength() gives for each variable the population variance of its noise variances across environments divided by their maximum; with positive variances it is zero exactly for variables with the same variance in all environments (hence for the non-targets of every fitted model), below a quarter of the largest variance, and scales with the unit of measurement; it raises ValueError iff there are variables and no environments. It is NaN exactly for variables whose variances are all zero, and infinite exactly if the largest is zero and another negative.", "quantifier": "all models", "why_tests_cant": "universal over real parameters", "anchors": ["utlvce/model.py:Model.intervention_strength"]}
{"id": "C75", "title": "Scaled latent incoherence", "statement": "scaled_latent_incoherence() equals the largest degree of the moral graph times the largest leverage of the reduced singular vectors of the latent effects; it lies between d*min(p,l)/p and d, equals d when there are at least as many latents as variables, does not depend on the decomposition found nor on an invertible change of the latent variables when the rows of gamma are independent (and depends on the decomposition without that), and raises ValueError iff there are no variables or no environments.", "quantifier": "all models with a DAG and non-zero variances, all valid decompositions", "why_tests_cant": "universal over real parameters and SVD outcomes", "anchors": ["utlvce/model.py:Model.scaled_latent_incoherence"]}
{"id": "C76", "title": "Solver gradients are those of the documented score, not of the loss compared (violated for several environments)", "statement": "Documented intent: the gradients returned for gamma, omegas and psis are those of the score the gradient descent compares. For every model with a DAG, positive noise variances and non-negative latent variances, the gamma gradient and the entries of the omega and psi gradients that differ per environment are the partial derivatives of the sample-size weighted Gaussian score; for variances shared by the environments the entry is the derivative with respect to the common value divided by the number of environments. With one environment this is the gradient of the loss actually compared; with several environments it is not (the derivative of the loss compared has the factor 1/N^(e-1-h) in environment h), and the step can even go uphill.", "quantifier": "all models, data and parameters", "why_tests_cant": "a statement about derivatives at every point; a numerical test only samples points", "anchors": ["utlvce/score.py:_solve_for_gamma", "utlvce/score.py:_solve_for_rest", "utlvce/model.py:Model.score"]}
{"id": "C77", "title": "The convex solver optimises B", "statement": "If cvxpy solves its problem up to eps, _solve_for_B_cvx returns weights respecting the DAG whose documented score (sample-size weighted Gaussian negative log-likelihood of the entailed covariances) is at most eps above that of any other weights respecting the DAG, the other parameters being kept. What is minimised is not the score computed by Model.score: for two environments other weights can have a smaller computed score.", "quantifier": "all models with a DAG and positive variances, all positive semi-definite sample covariances, all weights", "why_tests_cant": "optimality over all weights", "anchors": ["utlvce/score.py:_solve_for_B_cvx"]}
{"id": "C78", "title": "The gradient solver minimises the unweighted objective (violated: sample sizes ignored)", "statement": "A step of _solve_for_B_grad moves the weights of the edges against the partial derivatives of the sum of the trace terms of all environments and clears the rest, so the flattening (a TODO in the code) is right; when there is no overflow the result is within 1e-10 of weights that minimise this sum over all weights respecting the DAG up to 4e-8 times the distance; the loop ends when the curvature is below 400. With equal sample sizes this is optimality for the documented score; with different sample sizes it is not (violated).", "quantifier": "all models with a DAG and positive variances, all positive semi-definite sample covariances, all random starts (not almost 0 or 1)", "why_tests_cant": "optimality over all weights and termination of an unbounded loop", "anchors": ["utlvce/score.py:_solve_for_B_grad"]}
{"id": "C79", "title": "The adaptive solver does not worsen the score, but can run forever (termination violated)", "statement": "The weights returned by _solve_for_B_adaptive respect the DAG and their computed score is not above that of the random start restricted to the DAG. Termination is violated: with identity sample covariances in two environments, unit noise variances and the graph 0 -> 1, the weight changes its sign forever for every random start of absolute value at least 5e-6.", "quantifier": "all models with a DAG and positive variances, all data, all random starts", "why_tests_cant": "non-termination cannot be observed by tests; universal over starts", "anchors": ["utlvce/score.py:_solve_for_B_adaptive"]}
{"id": "C80", "title": "Gradient descent makes strict progress when it can", "statement": "If small steps against the gradient improve the loss within the bounds, _gradient_descent returns a strictly smaller loss; the gradients for gamma and for the variances are, as a whole, the gradient of the documented score over the directions that satisfy the constraints, so with one environment and a nonzero gradient each update strictly improves the loss. With several environments the update can be stuck away from a stationary point.", "quantifier": "all differentiable losses, all models, data, learning rates, thresholds and sufficiently small smallest step lengths; stuck: a concrete model with two environments, all thresholds and all learning rates up to 1", "why_tests_cant": "A test observes a decrease on one model; that a decrease is guaranteed needs the directional derivative in every direction, for all models.", "anchors": ["utlvce/score.py:_gradient_descent", "utlvce/score.py:_solve_for_gamma", "utlvce/score.py:_solve_for_rest"]}
{"id": "C81", "title": "Default numbers of latents, and no leakage from the third fold", "statement": "With nums_latent=None the candidates are 1..h with h the scree cutoff of the covariance of the first training sample: the number of latents of the result is one of them and has the smallest validation score among all of them (ties to the smallest). With two variables this default never returns: ZeroDivisionError. The number of latents and the graph of the result do not depend on the third fold.", "quantifier": "all data, fitting functions, candidate graphs, folds", "why_tests_cant": "non-interference relates two runs on all data; the candidates are tested on a few covariances only", "anchors": ["utlvce/main.py:_fit", "utlvce/main.py:_scree_selection"]}
{"id": "C82", "title": "The random graphs have expected average degree k", "statement": "If each uniform draw of _dag_avg_deg is uniformly distributed on the unit interval, the expectation of the average degree (twice the number of edges over the number of nodes) of the returned graph is k for 0 <= k <= p-1, and p-1 for larger k, whatever the permutation and the nonzero weights.", "quantifier": "every p >= 2, every k >= 0, every probability space carrying the draws, every permutation", "why_tests_cant": "the documented average degree is an expectation over all draws; a test sees a finite number of seeds", "anchors": ["utlvce/generators.py:_dag_avg_deg"]}
{"id": "C83", "title": "Array utilities: argmin, argmax, normalized_var, delete", "statement": "argmin and argmax return the lexicographically first position of the smallest and largest element of an array of any number of dimensions (a nan is preferred by both; ValueError for an array without elements). normalized_var is nan exactly for vectors without nonzero elements, otherwise in [0, 1], zero exactly for constant vectors, one exactly for vectors with mean zero, and invariant under scaling. delete keeps exactly the elements outside the mask for every supported numpy version.", "quantifier": "arrays of every number of dimensions and every shape; all vectors; all masks; all version strings", "why_tests_cant": "positions in arrays of any dimension and equivalences over all real vectors; the version branch not taken is never run by a test", "anchors": ["utlvce/utils.py:argmin", "utlvce/utils.py:argmax", "utlvce/utils.py:normalized_var", "utlvce/utils.py:delete"]}
{"id": "C84", "title": "Sharing between the cache and the returned models (isolation violated for cache hits)", "statement": "The model returned by a score_dag call that fits is not the object in the cache: whatever the caller does with it, later calls for the pair return an object with the fitted parameters. A call that finds the pair in the cache returns the cached object itself: later changes to it are seen by all later calls for the pair, which still return the old score.", "quantifier": "all heaps, caches, fitting procedures and sequences of operations by the caller", "why_tests_cant": "aliasing: isolation quantifies over everything a caller may do with a reference", "anchors": ["utlvce/score.py:Score.score_dag", "utlvce/score.py:_Cache", "utlvce/model.py:Model.copy"]}
{"id": "C85", "title": "The members of the returned class are indistinguishable", "statement": "If two DAGs are Markov equivalent and have the same parents at the targets, then every model over one of them (any latents, positive noise variances that change between environments only at the targets) is matched by a model over the other one with the same latent variances, the same noise variances at the targets and the same entailed covariance in every environment; hence both graphs reach exactly the same scores on all data. In particular every DAG of the class returned by equivalence_class admits a model entailing the covariances of the returned model. Agreement at the targets is needed.", "quantifier": "all DAGs, parameters, numbers of latents and environments, targets and data; all outputs of equivalence_class", "why_tests_cant": "a statement about all parameters over all pairs of equivalent graphs; a test compares fitted scores of a few graphs up to the error of the optimiser", "anchors": ["utlvce/utils.py:dag_to_icpdag", "utlvce/main.py:equivalence_class", "utlvce/model.py:Model.score", "utlvce/utils.py:imec"]}
{"id": "C86", "title": "The alternating optimisation does not make the parameters worse (one environment)", "statement": "With one environment and the solver cvx solving its problems up to an error eps, every iteration of score_dag keeps the parameters inside the bounds and raises the documented score of the parameters by at most eps; the parameters returned by score_dag score at most max_iter * eps worse than the initial ones. If at the new weights every step of length up to 1e-50 against the gradient for gamma (or, within the bounds, for the variances) improves the score, the iteration ends strictly below the previous score plus eps.", "quantifier": "all graphs, data with positive definite covariance, numbers of latents, targets, settings and eps", "why_tests_cant": "an inequality along all runs of a numerical procedure; a test sees a few runs", "anchors": ["utlvce/score.py:Score.score_dag", "utlvce/score.py:_solve_for_B_cvx", "utlvce/score.py:_solve_for_gamma", "utlvce/score.py:_solve_for_rest"]}
{"id": "C87", "title": "When the adaptive solver terminates and how good its result is (one environment)", "statement": "With one environment and exact arithmetic, _solve_for_B_adaptive returns from every random start if and only if there is no direction of weights on the edges of the graph in which the score has exactly one of the curvatures 2, 4, 8, ...; and the documented score of any weights it returns is at most 2e-5 * max(1, L) times the distance above that of any other weights respecting the graph, L being a bound on the curvature.", "quantifier": "all graphs (with at least one variable for the termination), data with positive semidefinite covariance, models with positive noise variances, and random starts", "why_tests_cant": "the termination of an unbounded loop for all inputs, and an optimality statement; a test cannot observe that a loop never ends", "anchors": ["utlvce/score.py:_solve_for_B_adaptive"]}
{"id": "C88", "title": "The score identifies the covariances", "statement": "Although the environments are weighted wrongly, the score is a proper one: on the covariances that a valid model entails, this model has the smallest score among all valid models (over any graph, with any number of latents), and another model has the same score if and only if it entails the same covariances in every environment. Hence every DAG in the interventional equivalence class reaches the smallest score, and when valid models are selected by their score on such covariances, the selected one entails them if any of them does. The selection needs models whose stored I - B^T belongs to their weights, which freshly fitted models do not satisfy: with an outdated one a model with the true parameters can lose against the empty graph.", "quantifier": "all models built by the constructor with positive noise variances and non-negative latent variances, all positive sample sizes, all numbers of environments and latents", "why_tests_cant": "an optimality statement over all models and covariances; a test compares finitely many models", "anchors": ["utlvce/model.py:score", "utlvce/main.py:_best_scoring", "utlvce/main.py:_fit"]}
{"id": "C89", "title": "The history returned by _fit describes the run", "statement": "For every integer store_history the result (or exception) of _fit is the same. The history is absent exactly for 0; otherwise it holds the number of latents of the returned model and the initial graphs (negative levels behave like 1). From level 2 on it holds the test scores of the pruned graphs of the selected number of latents, among them the graph of the result with the best score, and the p + 1 models of the target phase with their test scores, among them the result with the best score. From level 3 on it holds the score object, whose cache has no pair twice, contains only copies of fitted models and has one for every model of the target phase. With store_history=None _fit raises UnboundLocalError after all computations.", "quantifier": "all data, fits, candidate graphs, integer levels", "why_tests_cant": "relates two outputs of one run, and runs with different levels, for all inputs", "anchors": ["utlvce/main.py:_fit"]}
{"id": "C90", "title": "The models compared in a selection phase are not scored alike", "statement": "Without pruning, the model of a candidate in the graph phase is the object returned by the fitting procedure if the candidate was not listed before, and otherwise an object rebuilt from the cached parameters. In the target phase of every returning run (default threshold) the model with all variables as targets is a rebuilt object and the p other models are objects returned by the fitting procedure. Rebuilt objects score their own weights; objects returned by the fitting procedure score the weights from before the last iteration (C52). So a phase can rank models with equal parameters differently: there are inputs for which a candidate listed twice gets two scores, and for which the set of all variables loses to a smaller set although both models have the same parameters.", "quantifier": "all fitting procedures, candidate lists, data and returning runs; explicit inputs for the violations", "why_tests_cant": "depends on which calls hit the cache in a whole run; the objects have equal parameters", "anchors": ["utlvce/main.py:_prune_graphs", "utlvce/main.py:_prune_I", "utlvce/score.py:score_dag"]}
{"id": "C91", "title": "Larger models never fit worse; complete graphs fit what does not change", "statement": "If G is a subgraph of a DAG H and I a subset of J, then for every model over G with targets I there is a model over H with targets J and one more latent variable (of any variances) that entails the same covariances and has the same score on all data; so the smallest score over a class never increases with edges, targets or latents. A complete DAG entails every positive definite covariance, the same in all environments, without targets and with latents that have no effects; so if the sample covariances do not differ between environments (in particular with one environment) all complete DAGs attain the smallest score that any valid model over any DAG can have.", "quantifier": "all graphs, targets, parameters, data, numbers of variables, latents and environments", "why_tests_cant": "existence of parameters for every graph and covariance", "anchors": ["utlvce/model.py:Model.score", "utlvce/model.py:Model.covariances", "utlvce/score.py:_initialize_B"]}
{"id": "C92", "title": "Numbering and scale of the latents are not identified", "statement": "Numbering the latents differently and multiplying the effects of each by a nonzero constant c, with its variances divided by c^2, gives a valid model with the same covariances and the same score on all data. So an entry of gamma that is not zero can be replaced by any nonzero number.", "quantifier": "all models, permutations and constants", "why_tests_cant": "quantifies over all reparametrisations", "anchors": ["utlvce/model.py:Model.score", "utlvce/model.py:Model.covariances", "utlvce/model.py:Model.__init__"]}
{"id": "C93", "title": "The names of the variables do not matter", "statement": "If the variables of a graph (and the targets) are renamed by a permutation, is_dag gives the same answer, dag_to_cpdag, dag_to_icpdag, pdag_to_cpdag and maximally_orient return the renamed result or raise the same exception, and mec and imec list the renamed graphs. A model with renamed variables entails the renamed covariances and has the same score on the renamed data.", "quantifier": "all graphs, permutations, targets, iteration orders, models and data", "why_tests_cant": "all permutations; the algorithms go through the nodes in the order of their names", "anchors": ["utlvce/utils.py:is_dag", "utlvce/utils.py:dag_to_cpdag", "utlvce/utils.py:dag_to_icpdag", "utlvce/utils.py:pdag_to_cpdag", "utlvce/utils.py:maximally_orient", "utlvce/utils.py:mec", "utlvce/utils.py:imec", "utlvce/model.py:Model.score", "utlvce/model.py:Model.covariances"]}
{"id": "C94", "title": "The order of the environments does not matter (violated)", "statement": "Documented intent: the score is an average over environments, so listing the environments in another order (data, sample sizes and parameters alike) does not change it, nor which model is selected. The code weights the environments by their position (C37): with two environments and at least two observations the score is unchanged by exchanging them if and only if both contribute the same amount, and there are data and two models such that the order of the environments decides which one is selected, once against the documented score.", "quantifier": "all models and data for the characterisation; explicit inputs for the selection", "why_tests_cant": "a relation between two runs", "anchors": ["utlvce/model.py:Model.score", "utlvce/main.py:_best_scoring"]}
{"id": "C95", "title": "Ties are decided for all targets and the first candidate (violated with exact data)", "statement": "Documented intent: the returned set contains the intervention targets and the returned class the graphs compatible with the data. In every run that returns, every larger set of targets of the chain has a strictly worse test score than the returned one, and without prune_edges every earlier candidate graph, fitted with the chosen number of latents, has a strictly worse test score than the chosen one. So if all folds have the same covariances and every fit is exact whenever the class of models can entail the covariances, the result entails them, with the smallest listed number of latents, but all variables are declared targets, the returned graph alone makes up the class, and without prune_edges it is the first candidate that can entail the covariances with that number of latents. For two variables and no interventions there are inputs for which the returned graph has the edge reversed and both variables are declared targets.", "quantifier": "all data, fits, candidate graphs, numbers of latents; explicit inputs for the violation", "why_tests_cant": "behaviour in the limit of exact data cannot be sampled", "anchors": ["utlvce/main.py:_prune_I", "utlvce/main.py:_prune_graphs", "utlvce/main.py:_best_scoring", "utlvce/main.py:_fit"]}
{"id": "C96", "title": "Units of measurement (violated)", "statement": "Documented intent: pruning removes the weakest edges and then the variables whose noise varies least. In other units (variable i multiplied by c_i > 0) every model has a converted version that entails the converted covariances, and the score of converted models on converted data differs from the old one by a number that depends on units and sample sizes only, so comparisons of scores do not depend on the units. The choices made while pruning do: for every weighted DAG and every edge with non-zero weight there are units in which this edge is the weakest one and is deleted first; if all noise variances vary across environments, for every order of the variables there are units in which this is the order in which targets are removed, and with a threshold in (0,1) every nonempty set of variables is selected as targets in suitable units.", "quantifier": "all graphs, weights, edges, orders, sets, units, data", "why_tests_cant": "a relation between runs on transformed data, for all transformations", "anchors": ["utlvce/main.py:_weakest_edge", "utlvce/main.py:_prune_I", "utlvce/main.py:_prune_graphs", "utlvce/model.py:Model.score"]}
{"id": "C97", "title": "Sample covariances, and means of environments", "statement": "np.cov is the matrix of sample covariances: symmetric, positive semi-definite, its quadratic form is the sample variance of the linear combination; it is positive definite exactly if no nontrivial linear combination is constant in the sample, so never with at most as many observations as variables. It does not depend on the order of the observations or on constants added to them. So equivalence_class does not depend on the means of the environments. Violated for GES, which gets the pooled observations without centring per environment: the covariance of pooled samples is the pooled covariance within environments plus that of the means, and for two environments in which two variables are uncorrelated every value of the pooled covariance is obtained by shifting one of them.", "quantifier": "all samples, sizes, shifts, candidate lists, generators whose shuffle does not look at the values", "why_tests_cant": "all real samples; a relation between runs", "anchors": ["utlvce/main.py:_fit", "utlvce/main.py:_fit_ges", "utlvce/score.py:Score.__init__", "utlvce/main.py:equivalence_class"]}
{"id": "C98", "title": "Test folds that are too small", "statement": "If every environment has at least two observations in the test folds, a run is the one described by the other properties. If some environment has exactly one observation in a test fold, no result is returned (np.cov gives a scalar). If some environment has an empty second fold (for instance folds=[1,0,0]) and none has exactly one observation in a test fold, a result is returned without an error, but nothing is selected: it has the first candidate unpruned and the first number of latents. If the third fold of some environment is empty (whatever the second one), every returned result declares all variables targets and has the score NaN, whatever the data are.", "quantifier": "all data, folds, candidates, numbers of latents, fits", "why_tests_cant": "all sizes and splits; NaN must be followed through a whole run", "anchors": ["utlvce/main.py:_fit", "utlvce/main.py:_best_scoring", "utlvce/model.py:Model.score", "utlvce/utils.py:split_data"]}
{"id": "C99", "title": "split_data in floating point (violated for decimal ratios)", "statement": "Documented: ValueError if the ratios do not sum to one. With doubles and IEEE rounding, accepted nonnegative ratios sum to one up to 2^-53 per ratio, but ratios that sum to one as written can be rejected: [0.7,0.2,0.1] and [0.6,0.3,0.1] raise ValueError for all data, while [0.1,0.2,0.7] is accepted. For accepted ratios and fewer than 2^53 observations the folds are consecutive pieces of a permutation of the observations, each within one half plus n*ratio*2^-53 of its share unless the observations are used up, and at most half an observation per fold is lost (for fewer than 2^49 observations). For ratios that are multiples of 2^-k, such as the default ones, and fewer than 2^(53-k) observations, all results are those of exact arithmetic.", "quantifier": "all data, sample sizes and ratios (fewer than eight) in doubles", "why_tests_cant": "floating-point behaviour for all ratios and sizes", "anchors": ["utlvce/utils.py:split_data"]}
{"id": "C100", "title": "What the covariances and scores estimate", "statement": "If random variables follow the linear model in environment k (X = B^T X + gamma^T H + noise, with uncorrelated latents and noise of the given variances), their covariances are covariances()[k]; such variables exist for every model and nonnegative variances, with independent Gaussian latents and noise. The sample covariance of n >= 2 uncorrelated observations with equal means and covariance S has expectation S. So the expectation of the sample covariance of observations of a model is the matrix returned by covariances(), and the expectation of the score of a given model on new data is its score on the true covariances.", "quantifier": "all probability spaces, models, environments, sample sizes >= 2", "why_tests_cant": "expectations over all distributions", "anchors": ["utlvce/model.py:Model.covariances", "utlvce/model.py:Model.score", "utlvce/model.py:Model.sample", "utlvce/main.py:_fit"]}
{"id": "C101", "title": "Without latents the interventional class is exactly what covariances identify", "statement": "Let G and H be DAGs, I a set of targets, and consider models without latents whose noise variances are positive and, outside I, the same in all environments. With at least two environments the models over G and the models over H entail the same covariances if and only if G and H are Markov equivalent and have the same parents at every target. With one environment this holds if and only if they are Markov equivalent, whatever the targets. If the number of latents is not restricted this fails: with p latents for every two environments (so with p latents for two environments), and with p-1 latents for one environment, every DAG, with all weights zero and constant noise variances, entails every choice of positive definite covariances, and so attains the smallest score of all valid models on all data. For one environment p-2 latents are not enough (without edges), and for two environments there are covariances that no model with fewer than p targets and latents together entails. Without latents, for two DAGs of different interventional classes there are covariances on which some model over one of them scores strictly better than every model over the other, for all sample sizes.", "quantifier": "all DAGs, targets, numbers of variables and environments", "why_tests_cant": "quantifies over all parameters of two graphs", "anchors": ["utlvce/model.py:Model.covariances", "utlvce/utils.py:imec", "utlvce/utils.py:dag_to_icpdag", "utlvce/main.py:equivalence_class"]}
{"id": "C102", "title": "Changes of covariances between environments count the changed variables and reveal their effects", "statement": "In the covariances entailed by a model, the difference between two environments is a matrix whose rank is at most the number of variables whose noise variance changes plus the number of latents whose variance changes. If the latent variances do not change (psi_fixed), the rank is exactly the number of changed noise variances, the difference is the sum over the variables of the change of noise variance times the outer product of their total effects, and if only one variable changes its total effects are the changes of the covariances with it divided by the change of its variance. So any two such models with the same covariances, over any graphs and numbers of latents, agree on these. The covariances of the model returned by equivalence_class change by rank at most the number of returned targets plus latents, and with psi_fixed at most the number of returned targets. If latent variances may change and their number is not restricted, total effects are not determined.", "quantifier": "all models, graphs, numbers of variables, latents and environments, runs of equivalence_class", "why_tests_cant": "rank and identifiability statements over all parameters", "anchors": ["utlvce/model.py:Model.covariances", "utlvce/score.py:Score.score_dag", "utlvce/main.py:equivalence_class"]}
{"id": "C103", "title": "On exact covariances score_dag stays at the truth, and without latents it starts there", "statement": "If the sample covariances are those entailed by a model (what they converge to), then none of the three steps of score_dag moves from this model: both gradient descents return their start, the problem of the convex solver has no other solution, so the whole alternation returns the model unchanged after its first iteration. The gradient solver for B, from any random start, returns weights whose distance from those of the model is at most a constant times its tolerance, although it ignores the sample sizes. Without latents the initial model of score_dag for any DAG that has all edges of the model, with targets that include all variables whose noise variance changes, is already this model, so score_dag returns exactly its weights and noise variances, with weight zero on additional edges. Given the noise covariances, the weights are determined by the covariances. With latents the initial weights are regression coefficients and in general not those of the model.", "quantifier": "all graphs, supergraphs, numbers of variables, latents and environments, parameters, sample sizes, settings and random draws", "why_tests_cant": "an identity about the exact minimiser for all parameters; tests see estimates on samples only", "anchors": ["utlvce/score.py:Score.score_dag", "utlvce/score.py:_initialize_B", "utlvce/score.py:_solve_for_B_cvx", "utlvce/score.py:_solve_for_B_grad", "utlvce/score.py:_solve_for_gamma", "utlvce/score.py:_solve_for_rest"]}
{"id": "C104", "title": "On exact covariances equivalence_class finds a fitting candidate but declares every variable a target (targets violated)", "statement": "Run as it is, with the convex solver, no pruning of edges and zero among the numbers of latents, on samples whose covariances are in all three folds exactly those of a model without latents over one of the candidates, equivalence_class returns, selects no latents, and returns the first candidate that can entail the covariances, with a model that entails them. Documented intent is that the returned targets are the intervention targets: it declares all variables targets and the returned I-CPDAG is this single DAG, whatever the true targets are. With prune_edges the superfluous edges are never removed from a fitting graph, because their weights are exactly zero and count as infinitely strong: the first edge removed is one that is needed, no graph reached later entails the covariances, and a call that returns selects the same candidate as without prune_edges. With prune_edges and uncorrelated variables it never returns if a candidate has an edge.", "quantifier": "all candidates, numbers of variables and environments, data with exact covariances, numbers of latents, settings", "why_tests_cant": "tests use random samples, on which ties never occur exactly", "anchors": ["utlvce/main.py:equivalence_class", "utlvce/main.py:_fit", "utlvce/score.py:Score.score_dag", "utlvce/score.py:_solve_for_B_cvx"]}
{"id": "C105", "title": "Integer arrays in init_model do not change what score_dag does (violated)", "statement": "An init_model is a starting point: score_dag optimises from it, and whether a parameter is stored as 2 or 2.0 makes no difference. For arrays of floats, and without init_model, the code indeed follows the real-number model. Documented intent: the result is a fitted model. With arrays of integers numpy truncates every derivative towards zero, so that positive integer parameters (latent variances below psi_max) at which, for the weights that the solver for B returns, all partial derivatives of the score are less than one in absolute value are returned unchanged by every call that returns, with any solver for B, any targets and any stopping settings; without edges and latents this holds for all integer variances at least as large as the root of the sample variance. With one variable with sample variance 3 and initial variance 2 the float start gives a strictly better score and the integer start is returned as it was. The first step that lowers the score ends the truncation: a result other than the start consists of floats.", "quantifier": "all graphs, numbers of variables, latents and environments, data, targets, settings and solvers; for the float case all init_models", "why_tests_cant": "tests start from models generated with random floats", "anchors": ["utlvce/score.py:Score.score_dag", "utlvce/score.py:_solve_for_gamma", "utlvce/score.py:_solve_for_rest", "utlvce/score.py:_gradient_descent"]}
{"id": "C106", "title": "With several environments an iteration can make the parameters worse", "statement": "With two or more environments the alternating optimisation does not have the property C86. The updates of gamma and of the variances never make the score that the code computes worse, for any number of environments and any solver, but the update of B can: with two environments of n >= 20 observations each, an exact solver, init_model and max_iter = 1, whatever the targets, thresholds and learning rate, the returned parameters have a computed score more than 1/4 above that of the initial ones. The same happens without init_model, with all variables as targets as in the first phase of _fit: there are data for which the returned parameters have a computed score more than 1/12 above that of the initial model. For the documented score the update of the variances can: with the default learning_rate and threshold_score, one variable and two environments of n >= 100 observations each there are sample variances and an init_model for which score_dag returns parameters whose documented score is more than 9 above the initial one, although the computed score has gone down.", "quantifier": "all models, solvers, data and settings (updates of gamma and variances); all sample sizes above the bound, solvers that meet their specification, and settings (counterexamples)", "why_tests_cant": "the loss of score is not the documented one and the solver for B minimises another function than the line search; tests with one seed see scores that go down", "anchors": ["utlvce/score.py:Score.score_dag", "utlvce/score.py:_solve_for_B_cvx", "utlvce/score.py:_solve_for_rest", "utlvce/score.py:_gradient_descent", "utlvce/model.py:Model.score"]}
{"id": "C107", "title": "Pruning by thresholding keeps the relatively strong edges and targets", "statement": "With threshold_graph, _fit fits each candidate and keeps exactly the edges whose absolute weight exceeds the given fraction of the largest absolute weight; one model per candidate is fitted to what remains, which for thresholds that are not negative is a DAG contained in the candidate. A threshold of one or more removes all edges, one below one always keeps an edge of largest weight, and a negative one never returns unless all weights are zero. With threshold_I the targets are the variables whose noise variances vary more than the given fraction of the largest variation. On exact covariances of a model without latents, candidates that contain the true graph and thresholds below the ratios of smallest to largest weight and variation (zero for instance) give the true graph, the true targets and the true parameters. The documented meaning (edges with absolute weight below the threshold are removed) is violated in both directions for every threshold between zero and one.", "quantifier": "all fitting procedures that return models over the given graph, all candidates, thresholds and data; all sizes", "why_tests_cant": "thresholding is not reachable from the public functions and no test uses it; that the threshold is relative only shows for particular weights", "anchors": ["utlvce/main.py:_prune_graphs", "utlvce/main.py:_prune_I", "utlvce/main.py:_fit"]}
{"id": "C108", "title": "Repeated calls have the same result only with the convex solver (violated)", "statement": "Documented intent: successive calls with the same random state have the same result. With B_solver='cvx' the result of equivalence_class and equivalence_class_w_ges does not depend on the state of numpy's global generator. The solvers grad (the default) and adaptive start from a draw of the global generator, which no argument controls, and the returned weights depend on it: with the graph 0 -> 1 and suitable covariances the returned weight is the draw divided by -2^34 (grad, draws from 0.9 to 1) or -2^16 (adaptive, draws from 2/3 to 1). With B_solver='adaptive' a call of equivalence_class returns for some draws and never returns for almost all others, with the same arguments and the same random_state.", "quantifier": "all environments, data, candidates and draws for the convex solver; all draws in the stated ranges, sample sizes and square root implementations for the violations", "why_tests_cant": "a test that calls twice in the same process sees different draws but compares with a tolerance; which draws make the search endless depends on exact arithmetic", "anchors": ["utlvce/score.py:_solve_for_B_grad", "utlvce/score.py:_solve_for_B_adaptive", "utlvce/main.py:equivalence_class"]}
{"id": "C109", "title": "With growing samples only the last environment counts (violated)", "statement": "Documented intent: models are compared by the likelihood of the data of all environments, weighted by their sample sizes. When the samples grow, with shares and sample covariances that converge, the documented score converges to the average over the environments weighted by their shares, while the score that is computed converges to the share of the last environment times the likelihood of the last environment. From some sample size on, the model selected from a list fits the last environment at least as well as every other model of the list, however badly it fits the other environments. An estimate whose variances converge to the true ones with the rate 2/sqrt(t) is rejected at every sample size t >= 4 in favour of a model whose variance in the first environment is four times the true one; the documented score prefers the estimate at every such size.", "quantifier": "all proper models, numbers of variables and environments, sequences of sample sizes and covariances with limits, lists of models; all sample sizes of at least 4 for the last statement", "why_tests_cant": "a test has finite samples; the effect grows with the sample size", "anchors": ["utlvce/model.py:Model.score", "utlvce/main.py:_fit"]}
{"id": "C110", "title": "Inputs of unusual shape", "statement": "The sample covariances of raw data can be used by score_dag exactly if there is at least one environment and the number of variables is not one: np.cov of a single column has no axes, and unpacking the shape raises ValueError. So equivalence_class and equivalence_class_w_ges do not return for data with a single observed variable, whatever the other arguments, while precomputed covariances of one variable can be scored. A graph with fewer nodes than variables is rejected with IndexError (the documentation names only ValueError), one with more nodes with IndexError if an extra node has an edge to a variable and with ValueError otherwise.", "quantifier": "all numbers of variables, environments and nodes, all graphs, targets, data, folds, configurations and fitting functions", "why_tests_cant": "an error on a corner case of the input is invisible to tests on inputs of ordinary shape", "anchors": ["utlvce/score.py:Score.__init__", "utlvce/score.py:_initialize_B", "utlvce/main.py:_fit"]}
{"id": "C111", "title": "The number of fits", "statement": "A call of score_dag fits a model exactly if the pair of graph and targets has not been fitted before by the object, and the cache has one entry per fit. Without pruning, each number of latents costs one fit per different candidate. With pruning, score_dag is called once per candidate and once per edge of a candidate, and fits once per different graph on the pruning chains; a single candidate costs one fit more than it has edges. Selecting the targets costs exactly one fit per variable.", "quantifier": "all fitting procedures that respect the graph, candidates, numbers of latents, data and runs that return", "why_tests_cant": "the number of fits for all numbers of candidates, edges and variables is not settled by examples", "anchors": ["utlvce/score.py:Score.score_dag", "utlvce/main.py:_prune_graphs", "utlvce/main.py:_prune_I"]}
{"id": "C112", "title": "With psi_fixed, variances that change differently identify the effects of the targets", "statement": "Take models whose latent variances do not change between environments, as with psi_fixed, and call two variables proportional if the changes of their noise variances over all environments are multiples of each other. If two such models, over any graphs and with any numbers of latents, entail the same covariances and no two changing variables of the first are proportional, then the changing variables of the two correspond one to one, with total effects and changes that agree up to a factor; if the second changes only variables that change in the first, the same variables change, by the same amounts and with the same total effects. If all variables change, the weights agree: the score is smallest only for graphs that contain all true edges. On exact covariances of such a model equivalence_class with exact fits (for models without latents: with the convex solver as it is) finds the true weights and returns, without pruning, the first candidate that contains all true edges. None of this holds for proportional changes, for latents whose variances change, or if the second model may change other variables.", "quantifier": "all models, graphs, numbers of variables, latents and environments, calls of equivalence_class that return", "why_tests_cant": "identifiability is a statement about all pairs of models and all covariances", "anchors": ["utlvce/model.py:Model.score", "utlvce/score.py:Score.score_dag", "utlvce/main.py:equivalence_class"]}
{"id": "C113", "title": "Small errors do not lead to a wrong graph, but the admissible error depends on the sample sizes", "statement": "For every list of candidate graphs, numbers of latents, true covariances and sample sizes there is a positive bound such that the following holds. If the sample covariances of the three folds differ from the true ones by less than the bound, the fits miss the best documented score by less than the bound, and some candidate approximates the true covariances with one of the numbers of latents (has models arbitrarily close to them), then the graph, targets and number of latents that equivalence_class returns, with or without pruning, approximate the true covariances. Without latents they entail them; if in addition the noise variances of all variables change, no two proportionally, the returned class is one graph that contains all true edges and all variables are returned as targets. With the documented weights (sample size over total) classes of models that do not approximate the truth have worse scores than all covariances within a bound that depends only on the smallest share of an environment; with the weights of the code no bound works for all sample sizes. With latents a graph can approximate covariances that it does not entail.", "quantifier": "all candidates, covariances and sample sizes; all data, fits and options within the bound", "why_tests_cant": "a statement about all sufficiently small errors", "anchors": ["utlvce/model.py:Model.score", "utlvce/score.py:Score.score_dag", "utlvce/main.py:equivalence_class"]}
{"id": "C114", "title": "What the tests check on random graphs holds for all graphs", "statement": "The assertions that the test suite makes on random inputs hold for all inputs: in a DAG every chain component is one node, all_dags returns only the DAG, degrees are parents plus children and add up to twice the number of edges; a PDAG with u undirected edges has at most 2^u consistent extensions, all with the edges of the PDAG; a DAG and its CPDAG have the same degrees and moral graph; label_edges(order_edges(A)) is -1 exactly at the edges undirected in the CPDAG; a PDAG obtained by undirecting edges outside v-structures has A as consistent extension and the CPDAG of A; targets have no undirected edges in the I-CPDAG; imec with all targets is [A]; removing or adding all edges gives the empty or a complete graph and one more raises ValueError; covariances with no latent effects, or one latent per variable, are those without latents. Exceptions: splitting into two halves keeps all observations (asserted for 99 observations) iff their number leaves no remainder 1 modulo 4; and the consistency assertion of test_maximally_orient_2 cannot fail.", "quantifier": "all sizes, graphs, models, data, shuffles and set iteration orders", "why_tests_cant": "the tests sample a few random graphs or one sample size", "anchors": ["utlvce/utils.py:all_dags", "utlvce/utils.py:chain_component", "utlvce/utils.py:split_data", "utlvce/utils.py:pdag_to_cpdag", "utlvce/utils.py:degrees"]}
{"id": "C115", "title": "Equivalence classes are classes of graphs with the same d-separations", "statement": "The relation the code calls equivalence (same skeleton and v-structures) is the one it stands for: two DAGs are equivalent iff they have the same d-separations; two variables are adjacent iff no set separates them; mec(A) consists of exactly the DAGs with the d-separations of A, two DAGs have the same CPDAG iff they have the same d-separations, and an edge of the CPDAG is directed iff it has this direction in all of them; all consistent extensions of a PDAG have the same d-separations; imec(A, I) consists of exactly the DAGs with the d-separations of A after adding to both graphs a root for every target.", "quantifier": "all sizes, DAGs, sets of targets, conditioning sets and set iteration orders", "why_tests_cant": "the tests compare with enumerations by the same criterion; d-separation quantifies over all paths and conditioning sets", "anchors": ["utlvce/utils.py:mec", "utlvce/utils.py:imec", "utlvce/utils.py:dag_to_cpdag", "utlvce/utils.py:vstructures", "utlvce/utils.py:is_consistent_extension"]}
{"id": "C116", "title": "d-separated variables have partial correlation zero in the covariances of a model", "statement": "In every environment of a model with positive noise variances, two variables that are d-separated by a set Z are uncorrelated given Z: in the graph of the model if there are no latent effects, and in the graph with the latents as further nodes otherwise. Without latent effects the inverse covariances are zero for all pairs that are not joined in moral_graph(A), and the regression of a variable on any set that contains its parents and none of its descendants has the weights B of the model as coefficients, in all environments, and residual variance omegas.", "quantifier": "all models with positive noise variances and non-negative latent variances, all environments, pairs of variables and conditioning sets", "why_tests_cant": "tests can only check single covariance matrices for single separations, up to rounding", "anchors": ["utlvce/model.py:Model.covariances", "utlvce/utils.py:moral_graph"]}
{"id": "C117", "title": "For almost all weights the covariances determine the class of graphs", "statement": "Take any distribution of the weights with a density, such as independent uniform draws. With probability one, variables of the model are uncorrelated given others exactly if they are d-separated, in the graph of the model or, with latents, in the graph with the latents as further nodes; with a latent that has effects on all variables no partial correlation vanishes. Without latents, no DAG that entails the covariances of one environment lacks an adjacency of the model; and if the variances outside I do not change and those of adjacent variables, one of them in I, do not change in the same proportion, the DAGs with fewest edges that entail the covariances of all environments are exactly those returned by imec(A, I) (by mec(A) if no variances change). This holds in particular for models of sample_parameters without latents, with obs=True, several environments and positive draws of the variances, whose targets are not adjacent. If such a graph A is a candidate and no candidate has more edges, equivalence_class on exact covariances returns one of the graphs of imec(A, I).", "quantifier": "all DAGs, almost all weights, all positive variances that change as described, all competing DAGs", "why_tests_cant": "the statement is about all graphs that could explain the data and about all but a null set of weights; single draws can neither confirm nor refute it", "anchors": ["utlvce/model.py:Model.covariances", "utlvce/utils.py:imec", "utlvce/utils.py:mec", "utlvce/generators.py:sample_parameters", "utlvce/main.py:equivalence_class"]}
{"id": "C118", "title": "The probability of every random graph: all DAGs occur, but not equally often", "statement": "With independent uniform draws and a uniformly drawn permutation, _dag_avg_deg(p, k) with the default weights returns a 0/1 matrix G with probability (share of the orderings compatible with G) * q^(edges) * (1-q)^(p(p-1)/2 - edges), where q is k/(p-1) moved into [0, 1]. So each edge i -> j is present with probability q/2. For 0 < k < p-1 every DAG, and no other graph, has positive probability; graphs with equally many edges need not be equally likely (a collider of three nodes is twice as likely as a chain). The graph of random_graph_model with valid targets has the same distribution.", "quantifier": "all p other than 1 (from 2 on for the support), all k, all 0/1 matrices, all targets", "why_tests_cant": "a probability is a statement about all outcomes of the draws; a sample of seeds only estimates it, and the rarest graphs are never seen", "anchors": ["utlvce/generators.py:_dag_avg_deg", "utlvce/generators.py:random_graph_model"]}
{"id": "C119", "title": "With one environment and no latents a fit is the least squares fit and the unique maximum of the likelihood", "statement": "For data of one environment, no latents and a convex solver without error, whatever score_dag returns has as weights the coefficients of the least squares regressions of the variables on their parents, as variances the residual variances, and as score the negative log-likelihood; no model over the graph has a larger likelihood and only the returned covariance attains it. The targets given to score_dag do not matter. Consequently a run of equivalence_class that selects a model without latents declares all variables targets and returns the single DAG of the model instead of the Markov equivalence class.", "quantifier": "all p, covariances, DAGs, targets, start values and options; all candidates and data for the run", "why_tests_cant": "a test compares the fit with a few other parameters; that it is the only optimum, and that the targets never matter, are statements about all parameters and data", "anchors": ["utlvce/score.py:Score.score_dag", "utlvce/model.py:Model.score", "utlvce/main.py:equivalence_class"]}
{"id": "C120", "title": "With one environment and no latents equivalence_class is consistent", "statement": "The sample covariances of the folds of split_data of independent, identically distributed observations converge in probability to the covariance matrix. If a candidate can entail that matrix then, with a convex solver without error, the probability that equivalence_class raises an error or selects a candidate that cannot entail it, or parameters further than epsilon from those that do, tends to zero with the number of observations. If the observations follow a model without latents whose graph is a candidate with most edges, then for almost all weights the probability that the returned graph is not Markov equivalent to it tends to zero.", "quantifier": "all p, distributions with finite variances and invertible covariance matrix, candidates, positive fold ratios, generators, epsilon", "why_tests_cant": "consistency is a limit of probabilities over all data; a test sees one sample of one size", "anchors": ["utlvce/main.py:equivalence_class", "utlvce/utils.py:split_data", "utlvce/score.py:Score.score_dag"]}
{"id": "C121", "title": "With three environments the selection of the targets is not consistent", "statement": "For independent observations of independent variables in three environments of equal size, where the variance of one variable differs between the first two environments and is half-way between them in the third, a set of targets explains the data if and only if it contains this variable. Nevertheless, with candidates without edges, no latents and a convex solver without error, equivalence_class returns a set of targets that misses it with a probability that stays above a positive bound however large the samples are. The reason is the weights of the score, under which environments other than the last one disappear.", "quantifier": "all p, distributions with finite fourth moments for which the square of the changing variable in the third environment is not almost surely constant, variances, candidates without edges, positive fold ratios, generators; all sufficiently large samples", "why_tests_cant": "a statement about the limit of probabilities of runs; a test on one sample that misses the target looks like bad luck", "anchors": ["utlvce/main.py:equivalence_class", "utlvce/model.py:Model.score", "utlvce/score.py:Score.score_dag"]}
{"id": "C122", "title": "With several environments and no latents the weights and the last environment are consistent", "statement": "For independent observations in any number of environments whose covariances one of the candidates can entail without latents, with a convex solver without error and a bounded number of iterations, the probability that equivalence_class returns a graph and a number of latents that cannot approximate the covariance of the last environment tends to zero with the sample sizes, provided that the last environment keeps a positive share of the observations. If the returned model has no latents and its graph can entail all covariances, then its weights converge in probability to those of the true model over this graph, whatever the returned targets are, and so do its variances in the last environment if the returned targets contain the true ones. For a single fit the variances are close to the truth in every environment whose weight in the score does not vanish.", "quantifier": "all p, numbers of environments, candidates, sample sizes, fold ratios, numbers of latents, targets, distributions with finite second moments; limits in probability", "why_tests_cant": "a statement about limits of probabilities of runs, with a bound that has to hold for all sample sizes at once", "anchors": ["utlvce/main.py:equivalence_class", "utlvce/model.py:Model.score", "utlvce/score.py:Score.score_dag", "utlvce/utils.py:split_data"]}
{"id": "C123", "title": "With one environment, latents and nearly optimal fits equivalence_class is consistent", "statement": "For independent observations in one environment, any list of numbers of latents, with or without pruning, and fits that are within a constant of the best documented score, however they are found, the probability that equivalence_class returns a model whose graph and number of latents, with the returned targets, cannot approximate the true covariance tends to zero with the sample size, if some candidate with one of the numbers of latents can.", "quantifier": "all p, candidates, numbers of latents, fits, fold ratios, distributions with finite second moments", "why_tests_cant": "a statement about limits of probabilities of runs", "anchors": ["utlvce/main.py:equivalence_class", "utlvce/main.py:_fit", "utlvce/model.py:Model"]}
{"id": "C124", "title": "Variables that do not change are declared targets, however large the samples are", "statement": "For independent observations of independent variables in two or more environments of equal size, with candidates without edges, no latents and a convex solver without error, every variable whose variance is the same in all environments is, with a probability that stays above a positive bound however large the samples are, among the targets that equivalence_class returns, although the targets that explain the data need not contain it. So unless the variances of all variables change, the returned targets are not consistent. The reason is that the sets of targets are compared on a test fold whose errors are of the same order as those of the training fold.", "quantifier": "all p, numbers of environments from two on, distributions with finite fourth moments for which the square of the variable in the last environment is not almost surely constant, variances, candidates without edges, positive fold ratios, generators; all sufficiently large samples", "why_tests_cant": "a statement about limits of probabilities of runs; a test on one sample that finds a false target looks like bad luck", "anchors": ["utlvce/main.py:equivalence_class", "utlvce/main.py:_fit", "utlvce/score.py:Score.score_dag", "utlvce/utils.py:split_data"]}
{"id": "C125", "title": "Superfluous edges do not disappear, however large the samples are", "statement": "Without latents and with one environment, suppose that a graph H can entail the covariances of the observations and that some candidate passed to equivalence_class has the edges of H and one more, from i to j. If the residuals of i and of j on the parents of j in H are independent and not constant, then the probability that the returned model has exactly the edges of H does not tend to one, however large the samples are, with or without pruning of the candidates and even if H itself is among the candidates. So the returned graph is not consistent for the smallest graph, although (C120) it is consistent for the set of candidates that explain the data. The reason is that graphs are compared on a test fold whose errors are of the same order as those of the training fold.", "quantifier": "all p, distributions with finite fourth moments and positive definite covariance, lists of acyclic nonnegative candidates, positive fold ratios, generators, with and without pruning; all sufficiently large samples", "why_tests_cant": "a statement about limits of probabilities of runs; a test on one sample that finds a superfluous edge looks like bad luck", "anchors": ["utlvce/main.py:equivalence_class", "utlvce/main.py:_fit", "utlvce/score.py:Score.score_dag", "utlvce/utils.py:split_data"]}
{"id": "C126", "title": "With one environment the order of the candidates decides within a Markov equivalence class", "statement": "With one environment and without latents, models fitted to Markov equivalent graphs on the same training data entail the same covariances and have the same score on every test fold, so the comparison of candidates says nothing about them. The graph returned by equivalence_class without pruning is never preceded in the list of candidates by a Markov equivalent one; with pruning it is obtained from a candidate that is not preceded by one that is Markov equivalent to the returned graph. So if all candidates are of one Markov equivalence class, only the first one can be returned, whatever the data; and equivalence_class_w_ges, unless it prunes edges, returns the first graph in the enumeration of the class found by GES.", "quantifier": "all p, all data with positive definite covariances in the training fold and the test fold, lists of nonnegative candidates, ratios of folds, generators, with and without pruning", "why_tests_cant": "equality of scores of different graphs holds up to rounding in any test, and a run that returns a graph of the right class looks like a success", "anchors": ["utlvce/main.py:equivalence_class", "utlvce/main.py:equivalence_class_w_ges", "utlvce/main.py:_fit", "utlvce/main.py:_prune_graphs", "utlvce/score.py:Score.score_dag", "utlvce/utils.py:all_dags"]}
{"id": "C127", "title": "For data with a density almost all runs of equivalence_class return", "statement": "If the observations have a joint density, for instance if they are independent and each has one, and every fold of every environment is given at least p + 2 observations, then almost surely equivalence_class with the convex solver and without pruning returns: all sample covariances of all folds are positive definite. With one environment and without latents almost surely also pruning ends (by C56 it runs forever once all fitted weights are zero), because no sample covariance of two variables is zero, and so does equivalence_class_w_ges.", "quantifier": "all p from two on, numbers of environments, sample sizes, distributions with a density, candidates, lists of numbers of latents up to p (zero for pruning), ratios of folds and generators", "why_tests_cant": "a test runs a few samples; that the data for which a run raises or does not end have probability zero is a statement about all data", "anchors": ["utlvce/main.py:equivalence_class", "utlvce/main.py:equivalence_class_w_ges", "utlvce/main.py:_prune_graphs", "utlvce/score.py:Score.score_dag", "utlvce/utils.py:split_data"]}
{"id": "C128", "title": "Fair draws give fair folds, targets and subgraphs", "statement": "If the generator used for an environment puts its observations in all orders with equal probability, then the expected sample covariance (np.cov) of every fold of split_data with at least two of them is the sample covariance of all observations of the environment, whatever the data and the ratios. If rng.choice without replacement draws all sequences with equal probability, intervention_targets(p, n) returns every set of n of the p variables with probability 1 / (p choose n) and no other set, with a tuple this holds given the drawn number, and remove_edges removes every set of n of the d directed edges with probability 1 / (d choose n).", "quantifier": "all data, ratios from zero on with sum one, environments, folds with at least two observations, p, n up to p, graphs, sets of n directed edges, generators with the stated distributions", "why_tests_cant": "a test fixes the seed and sees single draws; probabilities and expectations concern all draws at once", "anchors": ["utlvce/utils.py:split_data", "utlvce/utils.py:remove_edges", "utlvce/generators.py:intervention_targets"]}
{"id": "C129", "title": "A simulation study recovers the class of its graph", "statement": "Take a 0/1 DAG A, draw a model without latents with sample_parameters, draw n normal observations per environment with Model.sample, and run equivalence_class (convex solver, no pruning, num_latent [0]) with candidates of which A is one and none has more edges. For almost all drawn weights (any distribution with a density, any positive variances) sample_parameters and sample return, and the probability that equivalence_class does not return, or that its class contains a graph that is not Markov equivalent to A, tends to zero as n grows.", "quantifier": "all graphs, candidate lists, targets, numbers of environments, weight distributions with a density, positive variances, ratios, seeds, generators whose draws are independent normal observations", "why_tests_cant": "each simulation is one draw; no number of them decides a limit of probabilities or a statement on almost all weights", "anchors": ["utlvce/generators.py:sample_parameters", "utlvce/model.py:Model.sample", "utlvce/main.py:equivalence_class", "utlvce/utils.py:mec"]}
{"id": "C130", "title": "Printing a model", "statement": "str(model) raises ValueError iff there are no variables or no environments. Otherwise it is the text with the sizes, A, B, gamma, omegas, psis, the scaled latent incoherence, and one line per variable, in order, with its intervention strength. For every model returned by equivalence_class printing returns and the strength shown for a variable outside the returned targets is zero. score_dag with verbose, which prints the initial model, returns or raises exactly what it does without.", "quantifier": "all models without zero variances, all texts of numbers and arrays, all data with positive definite covariances, graphs, targets, solvers and initial models", "why_tests_cant": "the documentation promises the output for every estimated model; tests print none", "anchors": ["utlvce/model.py:Model.__str__", "utlvce/score.py:Score.score_dag", "utlvce/main.py:equivalence_class"]}
{"id": "C131", "title": "The selected number of latents does not depend on the sorting algorithm", "statement": "If all test scores are numbers, every algorithm that returns the pairs (score, number of latents) in an order in which none is smaller than one before it returns the same list as the model of sorted, and its first element has the smallest score and the smallest number of latents with this score. With NaN such orders differ.", "quantifier": "all lists of scores with different numbers of latents, of any length, all sorting algorithms", "why_tests_cant": "CPython uses another algorithm for 64 elements and more, and other versions use other ones", "anchors": ["utlvce/main.py:_fit"]}
{"id": "C132", "title": "The probability of a wrong class decreases exponentially, and almost surely wrong classes stop appearing", "statement": "When the squares of the observations have an exponential moment, as those of normal observations have, the sample covariances of the folds are within any distance of the truth up to a probability that decreases exponentially with the number of rows. Without latents and pruning, the probability that equivalence_class does not return a candidate that can entail the covariance of the last environment is at most K times the sum of exp(-z N_k) over the environments, with constants that depend neither on the shuffling nor on the solver; the same holds for wrong parameters of a right graph. When observations keep arriving, almost surely all but finitely many runs return such a candidate. For data drawn by Model.sample from models drawn by sample_parameters this is the class of the simulated graph, for almost all weights.", "quantifier": "all numbers of observations, all candidates, folds, environments and generators of the splits; almost all weights", "why_tests_cant": "a rate in the number of observations and an almost sure statement quantify over infinitely many runs on random data", "anchors": ["utlvce/main.py:equivalence_class", "utlvce/utils.py:split_data", "utlvce/model.py:Model.sample", "utlvce/generators.py:sample_parameters"]}
{"id": "C133", "title": "What sample_parameters prints, and whose variances they are", "statement": "With verbose, sample_parameters returns the same model, or raises the same error. The first number printed is the largest factor by which the contribution of the latents to the covariance of the first environment stretches a vector. The second number, printed next to it for the noise, is the largest noise variance of the first VARIABLE over all environments, not the largest noise variance of the first environment, and does not depend on the variances of the other variables. Without environments the output raises IndexError.", "quantifier": "all graphs, targets, draws, numbers of variables, latents and environments", "why_tests_cant": "a spectral norm is a maximum over all vectors, and the claim is about all draws; the tests do not look at the output", "anchors": ["utlvce/generators.py:sample_parameters", "utlvce/generators.py:spectral_norm"]}
{"id": "C134", "title": "With one environment the returned parameters are within K/sqrt(n) of the truth", "statement": "With one environment and no latents, once the covariances of the folds are close enough for a right graph to be selected, the errors of the returned weights and variances are at most proportional to the errors of the covariances of the training data. Hence, for observations with fourth moments, up to an arbitrarily small probability the returned graph can entail the true covariance and the parameters are within K/sqrt(n) of the true ones. When the squares have an exponential moment, the probability of a wrong graph or of parameters that are not within any given distance decreases exponentially with n, also with latents and almost optimal fits for the graph, and almost surely the returned parameters converge to the true ones.", "quantifier": "all numbers of observations, candidates, folds, splits and distributions with the stated moments", "why_tests_cant": "rates in the number of observations quantify over infinitely many sizes and over the distribution of the data", "anchors": ["utlvce/main.py:equivalence_class", "utlvce/main.py:_fit", "utlvce/score.py:Score.score_dag", "utlvce/utils.py:split_data"]}
{"id": "C135", "title": "What a run prints", "statement": "For every value of verbose, a run returns the same result or raises the same exception as without printing. With verbose=0 the functions of main.py print nothing (the fits inside can print the warnings of C138). All positive values print the same, although the documentation says that higher values give more output. For candidates of zeros and ones: the first line has the numbers of edges of the candidates; the lines of the graph-pruning phase name every edge of a candidate exactly once, with its weight in the model fitted before, the number of edges that remain and the score of the model fitted without it; the lines of the target-pruning phase list the variables in the order of the variation of their noise variances with the remaining targets and the score; the line with the best number of latents names the number with the smallest of the printed test scores, the smallest number if there are several; the last two lines are the test score, number of latents, number of edges and targets of the model that is returned. With thresholds there are two lines about a candidate, its number of edges and the number of its edges that the returned model no longer has, with the scores of both models, and one line about the targets, those whose variances vary enough, with the score. With nums_latent=None exactly one line shows numbers of latents: all from one to the one at which the plot of the singular values splits best, and test scores are printed for these. For other candidates with entries that are not negative, the printed number of edges is the sum of the entries, which is the number of edges only for zeros and ones.", "quantifier": "all candidates, data, fits, numbers of latents, folds, thresholds, values of verbose and sizes", "why_tests_cant": "the tests do not look at the output, and the claims compare every line with the run for all inputs", "anchors": ["utlvce/main.py:_fit", "utlvce/main.py:_prune_graphs", "utlvce/main.py:_prune_I", "utlvce/main.py:_fit_ges"]}
{"id": "C136", "title": "What score_dag and its gradient descents print", "statement": "The verbosity of score_dag and of _gradient_descent does not change what they return or raise (for data that the constructor accepts, graphs without negative entries and an initial model without zero variances), and with verbose <= 0 the gradient descents print nothing and score_dag prints only the warnings of the solver 'grad', nothing for 'cvx' and 'adaptive'. With verbose > 0: the lines 'Iter' of score_dag are numbered from one, the counter of fluctuations in a line is the number of lines so far that report an increase above threshold_fluctuation, every line but the last shows a distance above threshold_dist_B, a number below max_iter and a counter below max_fluctuations, the last line shows which of the three ended the loop, and the returned score is the score of the initial model plus the sum of the printed differences. With verbose = 1 the output is the description of the initial model and, apart from these warnings, exactly four lines per iteration; with verbose >= 2 the last printed arrays are the parameters of the returned model. A pair of graph and targets that is in the cache prints nothing. In the output of a gradient descent the attempts are numbered from one, where the warnings about bounds count; kappa is one divided by two to the number of attempts without improvement before; the returned loss is the initial loss plus the negative differences; every improvement but the last is at least the threshold; and the last attempt shows an improvement less than the threshold, or none with a step that counts as zero.", "quantifier": "all graphs, targets, data, configurations, initial models, cache states, losses, gradients, bounds and values of verbose", "why_tests_cant": "the tests do not look at the output, and the claims relate every printed line to the run for all inputs and any number of iterations", "anchors": ["utlvce/score.py:_gradient_descent", "utlvce/score.py:Score.score_dag", "utlvce/score.py:_solve_for_gamma", "utlvce/score.py:_solve_for_rest"]}
{"id": "C137", "title": "How many graphs mec and all_dags return", "statement": "Let u be the number of undirected edges of the CPDAG of a DAG over p variables. mec returns at least one graph and at most 2^u and at most p! graphs. It returns one graph exactly if the CPDAG has no undirected edge, 2^u graphs exactly if no two undirected edges share a node, and p! graphs exactly if every two variables are adjacent. For a tree whose edges point away from a root it returns p graphs, one for each choice of the root. all_dags of the complete undirected graph over p > 1 variables returns p! graphs.", "quantifier": "all DAGs over any number of variables, with or without the chain shortcut", "why_tests_cant": "the bounds and the cases of equality are statements about graphs of every size; tests compare counts for a few graphs", "anchors": ["utlvce/utils.py:mec", "utlvce/utils.py:all_dags", "utlvce/utils.py:dag_to_cpdag"]}
{"id": "C138", "title": "The warnings of the solver for B", "statement": "_solve_for_B_grad prints warnings for every value of verbose. All its lines but possibly the last report a restart: the k-th of them (from zero) shows the learning rate 0.005 halved k times, which is not zero, and the number of the first step of the descent with this rate that is not finite. If there is no further line, the returned matrix is the point of the descent with the next learning rate, which is positive, where no entry changed by more than 1e-10. If the last line reports that the non-convex solver failed, the next learning rate is not positive or that point is not finite, and the returned matrix is that of _solve_for_B_adaptive. If n halvings give zero, there are at most n + 1 lines; if nothing overflows, there are none. The warnings in the output of score_dag do not depend on verbose: with verbose = 0 it returns the same and prints exactly the warnings that it prints with any other value, and nothing if nothing overflows.", "quantifier": "all data, models, random starts, learning rates, arithmetic of halving and overflow, graphs, targets and values of verbose", "why_tests_cant": "overflows are rare and the tests do not look at the output; the claims hold for any number of restarts and steps", "anchors": ["utlvce/score.py:_solve_for_B_grad", "utlvce/score.py:Score.score_dag"]}
{"id": "C139", "title": "The arguments of _fit for GES, and more candidates", "statement": "For given initial graphs the arguments ges_env, ges_phases and ges_lambdas of _fit have no effect; without any of them _fit runs GES with its three phases on the pooled training data with the penalty log N. In general, if no graphs are given, _fit returns what it returns for the following candidates: for each penalty of ges_lambdas, in that order, all consistent extensions (each once) of the CPDAG found by GES with the penalty lambda/2 log N on the training data, or on those of the environment ges_env only, counted from the end if it is negative. So a graph is a candidate as often as there are penalties that lead to it. A number ges_env that belongs to no environment raises an IndexError, and an empty list of penalties leads to an IndexError later. Candidates that are appended to a list of candidates never make the best score on the validation data worse, for every number of latents; and if no score is nan, neither further candidates nor further numbers of latents make the validation score worse that the selected graph and number of latents have.", "quantifier": "all data, folds, environments, lists of penalties and phases, outcomes of GES, candidate lists, numbers of latents and fits", "why_tests_cant": "the arguments are not reachable through the public functions and not tested; the claims are about all lists of penalties and candidates", "anchors": ["utlvce/main.py:_fit", "utlvce/main.py:_fit_ges"]}
{"id": "C140", "title": "Which further targets make the class smaller", "statement": "The edges at a target are directed in the graph returned by dag_to_icpdag. A further target leaves this graph unchanged exactly if all edges at it were already directed; then imec returns the same graphs, and otherwise fewer. With more targets imec never returns more graphs. It returns the given DAG only, exactly if dag_to_icpdag returns a graph without undirected edges, and this is so if every undirected edge of the CPDAG has an end among the targets. If targets are added one after the other and each makes the class smaller, there are at most p - 1 of them, and for the complete DAG the first p - 1 variables are such targets.", "quantifier": "all DAGs over any number of variables, all sets and lists of targets, all iteration orders", "why_tests_cant": "tests compare the functions on sampled graphs and targets; the claims relate the results for different targets on all graphs", "anchors": ["utlvce/utils.py:imec", "utlvce/utils.py:dag_to_icpdag"]}
{"id": "C141", "title": "Graphs given by floating-point matrices", "statement": "For matrices of doubles whose entries are not negative (infinities included) topological_ordering and is_dag are right about the graph of the non-zero entries, and dag_to_cpdag, dag_to_icpdag, mec and imec return the essential graphs and classes of this graph, whatever the order in which numpy adds and also when sums overflow or round. skeleton leaves out exactly pairs that are both zero or cancel exactly. only_directed and only_undirected keep the weights of the directed and of the undirected edges. A matrix whose non-zero entries are all NaN passes is_dag whatever its graph; among graphs without undirected edges a cyclic one passes exactly if an entry on or behind a cycle is NaN. With negative entries the result depends on the order of summation, also where the weights do not add up to zero, and a returned ordering can list a node twice.", "quantifier": "all numbers of variables, all matrices of doubles with rounding, overflow, infinities and NaN, all orders and bracketings of the sums, all set orders, all targets", "why_tests_cant": "Rounding, overflow and NaN concern particular values of the entries; tests use small integers, and the order of summation is not documented by numpy.", "anchors": ["utlvce/utils.py:topological_ordering", "utlvce/utils.py:is_dag", "utlvce/utils.py:skeleton", "utlvce/utils.py:dag_to_cpdag", "utlvce/utils.py:imec"]}
{"id": "C142", "title": "What the graph functions print with debug", "statement": "With debug, pdag_to_dag, maximally_orient, dag_to_icpdag, is_consistent_extension and _dag_avg_deg return the same or raise the same exception as without, and without debug they print nothing. pdag_to_dag, if it returns: the lines about candidates name every node once, and the graph that is returned has no edge from a node to one named later; for each of them it prints the part of the graph on the nodes not yet named, their list in increasing order, a line for each node in order up to the first one that satisfies the two conditions of the search, and the position of this one in the list together with its name. If it raises ValueError, the last printed graph is the part of the given graph on the nodes that were not named, a line for each of these nodes follows, and this part has no consistent extension. maximally_orient: every line names an edge that was undirected and that is directed in the result in the printed direction, every such edge is named once, and all consistent extensions contain it; the printed rules are those that apply to the edge in the graph obtained from the input with the orientations printed before. dag_to_icpdag for DAGs: the printed lists are the initial parts of a list of the edges at the targets, from the longest to the shortest; the edges named are edges of the DAG that are undirected in its CPDAG, each named once, and these and the edges at the targets are exactly those that become directed. is_consistent_extension prints nothing if the graph has a cycle; otherwise the three lines say whether v-structures, skeleton and orientations agree, and show them, and the result is true exactly if all three do. _dag_avg_deg prints the average number of neighbours of a node in the returned graph if no weight is zero.", "quantifier": "all graphs over any number of variables (non-negative entries for dag_to_icpdag and is_consistent_extension; no self-loops for the order of the candidates), all targets, all draws, all iteration orders", "why_tests_cant": "the tests do not look at the output; the claims relate each line to the graphs for all inputs, also on the paths that raise", "anchors": ["utlvce/utils.py:pdag_to_dag", "utlvce/utils.py:maximally_orient", "utlvce/utils.py:dag_to_icpdag", "utlvce/utils.py:is_consistent_extension", "utlvce/generators.py:_dag_avg_deg"]}
{"id": "C143", "title": "Errors in the computed test scores", "statement": "_fit compares scores that are computed in floating-point arithmetic. However these scores are computed, the result has the documented shape: a number of latents that was tried, an acyclic graph that comes from a candidate by removing edges (none without pruning), the model fitted to it and to the returned targets, and targets whose variance across environments is at least that of the other variables. If every computed score is within eps of the exact one, then the exact validation score of the returned graph and number of latents is at most 2 eps above that of any model of any number of latents, the exact test score of the returned model is at most 2 eps above that of the model for each other set of targets, and the returned score is within eps of the exact one. If the exact scores of models with different numbers of latents or graphs, or with different targets, differ by more than 2 eps, then the errors change neither the model nor the targets, and the score by at most eps. For ties this fails: errors of any positive size can change the number of latents that is returned.", "quantifier": "all data, candidates, numbers of latents, folds and fitting procedures; all ways of computing the scores (and errors of at most any eps)", "why_tests_cant": "tests run with one library on one machine; the claim is about every error of a given size and all inputs", "anchors": ["utlvce/main.py:_fit", "utlvce/main.py:_best_scoring", "utlvce/model.py:Model.score"]}
{"id": "C144", "title": "PDAGs with floating-point entries", "statement": "For every matrix of doubles with zero diagonal (negative weights, infinities and NaN included) pdag_to_dag returns iff the graph of the non-zero entries has a consistent extension and raises ValueError otherwise; the result is a consistent extension that keeps the weights of the directed edges and gives weight 1 to edges that were undirected. maximally_orient keeps exactly the entries whose edge is in some consistent extension, with their weights. If the weights of the directed edges are not negative, pdag_to_cpdag and pdag_to_icpdag return the essential graphs of every consistent extension, and raise ValueError if there is none or a target has an undirected edge. If moreover the undirected entries are 1 and there are less than 1024 undirected edges, all_dags returns the consistent extensions with the weights of the matrix, each once, in whatever order numpy adds. With undirected weights of at most one half it raises AssertionError.", "quantifier": "all matrices of doubles with zero diagonal, all orders of summation and set iteration", "why_tests_cant": "tests use integer matrices and a few small graphs; whether weights and NaN are handled is a statement about all matrices and all orders of summation", "anchors": ["utlvce/utils.py:pdag_to_dag", "utlvce/utils.py:maximally_orient", "utlvce/utils.py:pdag_to_cpdag", "utlvce/utils.py:pdag_to_icpdag", "utlvce/utils.py:all_dags", "utlvce/utils.py:is_consistent_extension"]}
{"id": "C145", "title": "Paths, cliques and edge changes with floating-point entries", "statement": "For every matrix of doubles (negative weights, infinities and NaN included) na, directed_edges, edge_weights, induced_subgraph, semi_directed_paths, separates, chain_component, add_edges and remove_edges see the graph of the non-zero entries. skeleton, degrees, is_clique, is_complete and moral_graph overlook exactly the edges whose two weights are opposite numbers, so none in a graph without undirected edges. to_factorization gives the parents if the weights are not negative. is_supergraph(sup, A) is True iff every weight of A is 0 or 1 and every edge of A is one of sup; has_subgraph and has_supergraph quantify it over the lists.", "quantifier": "all matrices of doubles, all orders of summation and set iteration", "why_tests_cant": "tests use integer matrices; that rounding never hides an edge and which weights do is a statement about all pairs of doubles", "anchors": ["utlvce/utils.py:na", "utlvce/utils.py:directed_edges", "utlvce/utils.py:edge_weights", "utlvce/utils.py:induced_subgraph", "utlvce/utils.py:semi_directed_paths", "utlvce/utils.py:separates", "utlvce/utils.py:chain_component", "utlvce/utils.py:skeleton", "utlvce/utils.py:degrees", "utlvce/utils.py:is_clique", "utlvce/utils.py:is_complete", "utlvce/utils.py:moral_graph", "utlvce/utils.py:to_factorization", "utlvce/utils.py:is_supergraph", "utlvce/utils.py:has_subgraph", "utlvce/utils.py:has_supergraph", "utlvce/utils.py:add_edges", "utlvce/utils.py:remove_edges"]}
{"id": "C146", "title": "is_dag and topological_ordering for weights of any sign", "statement": "For every matrix of integers, and every matrix of doubles with any order of summation (negative weights, infinities and NaN included): is_dag returns True iff neither the entries of the undirected edges nor the entries left after peeling have a positive sum, where peeling starts at the columns that add up to zero and frees a node when all its directed parents are free; the answer does not depend on the order of set iteration. So every DAG passes, whatever its weights, and topological_ordering returns a list with all nodes; a node is repeated iff it has parents and its weights add up to zero. If no node does, the list is a topological order, dag_to_cpdag and dag_to_icpdag return the essential graphs, and (for integers) mec and imec enumerate the classes. Otherwise they may raise IndexError for a DAG that is_dag accepts: the collider with weights 1 and -1.", "quantifier": "all square matrices of integers or doubles, all orders of summation and set iteration", "why_tests_cant": "tests use matrices with entries 0 and 1; how sums that cancel steer the peeling is a statement about all weights", "anchors": ["utlvce/utils.py:topological_ordering", "utlvce/utils.py:is_dag", "utlvce/utils.py:order_edges", "utlvce/utils.py:dag_to_cpdag", "utlvce/utils.py:dag_to_icpdag", "utlvce/utils.py:mec", "utlvce/utils.py:imec"]}
{"id": "C147", "title": "Zero noise variances in the metrics and the text of a model", "statement": "For all models: without zero noise variances scaled_latent_incoherence() and str(model) are the functions of C75 and C130. If a variable with an effect of a latent variable has the noise variance zero in some environment, both raise LinAlgError, although the constructor accepts the model and covariances() returns; with verbose=1 score_dag then raises LinAlgError for such an init_model, where it can return without. Where zero times infinity is NaN, the exceptions are exactly: ValueError without variables or environments, LinAlgError if any variance is zero (for models with latent variables). Without latent variables the incoherence is 0 and the text is complete, with the strength nan exactly for the variables without any noise.", "quantifier": "all models, initial models, set orders, SVD routines, and both treatments of zero factors in matrix products", "why_tests_cant": "tests print models with positive variances; when the text exists is a statement about all models", "anchors": ["utlvce/model.py:Model.scaled_latent_incoherence", "utlvce/model.py:Model.intervention_strength", "utlvce/model.py:Model.__str__", "utlvce/score.py:Score.score_dag"]}
{"id": "C148", "title": "Generators for all sizes, seeds and intervals", "statement": "For all integers as sizes and seeds (or no seed) and all ends of intervals: sample_parameters raises nothing but ValueError, iff the graph has a cycle, the targets are not variables, the seed, num_latent or e is negative, or (if numpy checks it) the ends of an interval that is used are exchanged. Otherwise the model has the sizes asked for and weights within the interval; with positive lower ends all variances are positive, the covariances positive definite, and the model can be printed. With sparse_latents a latent variable affects at most (p + 2) // 5 variables, so none if there are one or two. chain_graph_model never looks at the seed; random_graph_model raises ValueError for seeds outside of 32 bits, else ZeroDivisionError for one node; intervention_targets raises ValueError for negative p or seeds.", "quantifier": "all integers, intervals, graphs without negative entries and draws, with and without the check of intervals", "why_tests_cant": "tests call the generators with a few sensible arguments; the exact set of arguments that are refused is a statement about all of them", "anchors": ["utlvce/generators.py:sample_parameters", "utlvce/generators.py:chain_graph_model", "utlvce/generators.py:random_graph_model", "utlvce/generators.py:intervention_targets", "utlvce/generators.py:_dag_avg_deg"]}
{"id": "C149", "title": "dag_to_cpdag and the classes for DAGs whose weights have any sign", "statement": "For every DAG, whatever the signs of its weights: let a node that topological_ordering lists twice count where it occurs first. If every edge goes forward in the list, order_edges returns the numbers from one to the number of edges on exactly the edges, and dag_to_cpdag returns a graph with the adjacencies of the DAG; if some edge goes backward, order_edges, dag_to_cpdag, dag_to_icpdag, mec and imec raise an IndexError. If every edge also goes forward where the nodes occur last, dag_to_cpdag and dag_to_icpdag return the essential graphs, and mec and imec each member of the class once. All this also holds for doubles, infinities and NaN included, and any order of summation; in particular mec and imec are right for doubles when no column with an edge adds up to zero. If every edge goes forward only where the nodes occur first, the result may be wrong without an error: for a DAG on five nodes with one weight -1, dag_to_cpdag directs two reversible edges and mec omits a Markov equivalent DAG.", "quantifier": "all sizes, DAGs with weights of any sign (integers or doubles), target sets, set orders and orders of summation", "why_tests_cant": "tests use weights 0 and 1; what happens when a node is listed twice depends on the order of all nodes", "anchors": ["utlvce/utils.py:order_edges", "utlvce/utils.py:label_edges", "utlvce/utils.py:dag_to_cpdag", "utlvce/utils.py:sort", "utlvce/utils.py:mec", "utlvce/utils.py:imec"]}
{"id": "C150", "title": "equivalence_class with candidate DAGs whose weights have any sign", "statement": "The documentation of candidate_dags says that A[i, j] != 0 is an edge, so a candidate may carry weights of any sign. Whatever the signs, if equivalence_class returns, the graph of the model is a candidate or, with prune_edges, a candidate with some edges set to zero; the fitted coefficients respect it; the number of latents is a given one; the targets are the best of the nested ones on the third fold; and every edge goes forward in the list of topological_ordering by first occurrences. The returned graph is the interventional essential graph if every edge also goes forward by last occurrences, in particular if no column with an edge adds up to zero and edges are not pruned, or if all weights of a column have the same sign. Without zero sums the call without pruning returns. Otherwise it can fail after all models have been fitted: for the candidate 0 -> 2 <- 1 with weights 1 and -1 it never returns but raises an IndexError, and for a candidate on five nodes with one weight -1 the returned graph directs two reversible edges. A candidate whose weights add up to zero or less is not pruned at all.", "quantifier": "all sizes, candidate lists, weights, data, folds, numbers of latents and fitting procedures (returned model has the given graph and respects it)", "why_tests_cant": "tests pass candidates with entries 0 and 1; the failures depend on how the weights of a column add up", "anchors": ["utlvce/main.py:equivalence_class", "utlvce/main.py:_fit", "utlvce/main.py:_prune_graphs", "utlvce/utils.py:dag_to_icpdag", "utlvce/utils.py:topological_ordering"]}
{"id": "C151", "title": "pdag_to_cpdag, pdag_to_icpdag, all_dags and to_factorization for directed edges with weights of any sign", "statement": "The documentation of these functions says that P[i, j] != 0 is an edge. For arrays of doubles in which directed edges may have weights of any sign, NaN and infinities included, and for any order of numpy's additions and of Python's sets: to_factorization returns the parents of every node of a DAG. pdag_to_cpdag and pdag_to_icpdag raise a ValueError if there is no consistent extension (the latter also if a target has an undirected edge); otherwise they raise an IndexError if an edge of the extension found by pdag_to_dag goes backward in its topological_ordering by first occurrences, and return the essential graph of all consistent extensions if all edges go forward by first and last occurrences. The IndexError occurs although an extension exists: 0 -> 1 and 0 -> 2 with weight -1 and 1 - 2. all_dags, with undirected entries 1, at least one and less than 1024 undirected edges, returns every orientation that has the v-structures of the PDAG and passes is_dag, once: all consistent extensions are among them, the acyclic ones are consistent extensions, but graphs with a cycle of negative weights are also returned, even if there is no consistent extension. For integers held as doubles with absolute values adding up to less than 2^53 topological_ordering, is_dag, order_edges and dag_to_cpdag do what they do for integers.", "quantifier": "all sizes, weights (doubles, infinities and NaN), orders of addition, orders of the sets, targets", "why_tests_cant": "the tests use entries 0 and 1; what happens depends on the signs of weights and on how columns add up", "anchors": ["utlvce/utils.py:pdag_to_cpdag", "utlvce/utils.py:pdag_to_icpdag", "utlvce/utils.py:all_dags", "utlvce/utils.py:to_factorization", "utlvce/utils.py:is_dag"]}
{"id": "C152", "title": "is_dag, Model and sample_parameters for adjacency matrices of any sign", "statement": "The documentation says that A[i, j] != 0 is an edge. is_dag accepts every matrix without positive entries, whatever its cycles and loops (integers, and doubles with infinities and NaN, in any order of the additions). For a DAG with weights of any sign Model(...) succeeds iff B is zero where A is, and covariances() then returns; for a matrix without positive entries it succeeds in the same way, cycles or not, and covariances() raises LinAlgError iff I - B^T is singular. sample_parameters returns a model for every DAG, with weights that are the drawn ones times those of A: they lie in [B_lo, B_hi] for all draws (0 < B_lo <= B_hi) iff all weights of A are 1. The documented ValueError for cyclic graphs is not raised for the matrix [[0, -1], [-1, 0]]: with B_lo = B_hi = 1 a model without covariances is returned.", "quantifier": "all sizes, weights, draws, targets, orders of addition and of the sets", "why_tests_cant": "tests use entries 0 and 1; the documented checks fail only for other weights", "anchors": ["utlvce/utils.py:is_dag", "utlvce/model.py:Model.__init__", "utlvce/model.py:Model.covariances", "utlvce/generators.py:sample_parameters"]}
{"id": "C153", "title": "Graphs with cycles never get an equivalence class, whatever their weights", "statement": "is_dag accepts some graphs with cycles (C146, C152). Nevertheless dag_to_cpdag, dag_to_icpdag, mec and imec never return for a graph with a cycle: they raise a ValueError or an IndexError, never anything else and without looping forever, for integers and for doubles (infinities and NaN included) and any order of the additions. Hence a model that equivalence_class or equivalence_class_w_ges returns has an acyclic graph, whatever the candidates, the data and the fitting procedure. Both errors occur.", "quantifier": "all sizes, weights, targets, candidates, data, fitting procedures, orders of addition and of the sets", "why_tests_cant": "the acceptance by is_dag depends on how weights cancel; no finite set of graphs covers it", "anchors": ["utlvce/utils.py:order_edges", "utlvce/utils.py:label_edges", "utlvce/utils.py:dag_to_cpdag", "utlvce/utils.py:mec", "utlvce/utils.py:imec", "utlvce/main.py:equivalence_class"]}
{"id": "C154", "title": "Adjacency matrices of 64-bit integers: sums that wrap around", "statement": "numpy adds integers modulo 2^64. What is_dag decides is characterised for all matrices under this arithmetic. If the absolute values of the entries add up to less than 2^63 (entries 0 and 1 and less than 3037000500 nodes) topological_ordering, is_dag and order_edges do what they do for unbounded integers, and so does dag_to_cpdag if there are less than 2^31 edges. Every DAG passes however large its weights are; a node is repeated in the list iff a node with parents has weights that add up to a multiple of 2^64, and otherwise the list is a topological order and dag_to_cpdag returns the essential graph. Graphs with a cycle and less than 2^31 edges never get a CPDAG. The cycle of two nodes with positive weights is accepted by is_dag iff the sum of its weights overflows.", "quantifier": "all sizes, weights and orders of the sets", "why_tests_cant": "overflow occurs only for huge weights or graphs that no test can build", "anchors": ["utlvce/utils.py:topological_ordering", "utlvce/utils.py:is_dag", "utlvce/utils.py:order_edges", "utlvce/utils.py:label_edges", "utlvce/utils.py:dag_to_cpdag"]}
{"id": "C155", "title": "What dag_to_icpdag, imec and equivalence_class return represents members of the class only", "statement": "For weights of any sign the graph that dag_to_icpdag returns may be wrong (C149). It errs in one direction only: if dag_to_icpdag returns P for a matrix G, then G is a DAG and a consistent extension of P, P has entries 0 and 1, no edge at a target is undirected, and every consistent extension of P is interventionally equivalent to G (also for doubles with infinities and NaN). If imec returns, the list contains the graph itself and members of its class only, none twice. The same holds for what equivalence_class and equivalence_class_w_ges return, whatever the candidates, the data and the fitting procedure. Members may be missing: for a graph of five nodes with one weight -1 imec without targets leaves out a member.", "quantifier": "all sizes, weights, targets, candidates, data, fitting procedures, orders of addition and of the sets", "why_tests_cant": "soundness for all inputs, including those for which the result is not the documented one", "anchors": ["utlvce/utils.py:dag_to_icpdag", "utlvce/utils.py:maximally_orient", "utlvce/utils.py:is_consistent_extension", "utlvce/utils.py:imec", "utlvce/main.py:equivalence_class", "utlvce/main.py:equivalence_class_w_ges"]}
{"id": "C156", "title": "dag_to_cpdag and mec err in one direction only, and the final assertion of dag_to_icpdag never fails", "statement": "For weights of any sign: if dag_to_cpdag returns C for a matrix G, then G is a DAG and a consistent extension of C, C has entries 0 and 1 and every consistent extension of C is Markov equivalent to G. If mec returns, the list contains the graph itself and Markov equivalent DAGs only, none twice. Whenever dag_to_cpdag returns, dag_to_icpdag returns for all targets: its final assertion never fails, and it raises exactly the errors of dag_to_cpdag. The consistent extensions of its result are those of C in which the targets have the parents they have in G, and if a target has an edge the result has exactly the edges of these extensions. The same holds for matrices of doubles, infinities and NaN included.", "quantifier": "all sizes, weights, targets, orders of addition and of the sets", "why_tests_cant": "that an assertion never fails and that no result is unsound are claims about all inputs, including those for which the result is not the documented one", "anchors": ["utlvce/utils.py:dag_to_cpdag", "utlvce/utils.py:label_edges", "utlvce/utils.py:order_edges", "utlvce/utils.py:dag_to_icpdag", "utlvce/utils.py:mec"]}
{"id": "C157", "title": "A second step repairs what negative weights break, and the PDAG functions are sound for weights of any sign", "statement": "If dag_to_cpdag returns C for a DAG with weights of any sign, pdag_to_cpdag(C) is the essential graph, that is, what dag_to_cpdag returns for the 0-1 matrix of the DAG; C is right exactly if pdag_to_cpdag does not change it. The same holds for dag_to_icpdag and pdag_to_icpdag with the same targets, and for the graph, the targets and the model that equivalence_class and equivalence_class_w_ges return, whatever the candidates, the data and the fitting procedure. If pdag_to_cpdag returns for a PDAG of doubles of any sign, the PDAG has a consistent extension that is also one of the result, and all consistent extensions of both are Markov equivalent. pdag_to_icpdag returns exactly if no target has an undirected edge and pdag_to_cpdag returns, and then all consistent extensions of the PDAG and of the result are interventionally equivalent.", "quantifier": "all sizes, weights, targets, candidates, data, fitting procedures, orders of addition and of the sets", "why_tests_cant": "an identity between two compositions of graph functions, for all inputs, including those for which one of them is wrong", "anchors": ["utlvce/utils.py:dag_to_cpdag", "utlvce/utils.py:pdag_to_cpdag", "utlvce/utils.py:dag_to_icpdag", "utlvce/utils.py:pdag_to_icpdag", "utlvce/main.py:equivalence_class", "utlvce/main.py:equivalence_class_w_ges"]}
{"id": "C158", "title": "More targets never enlarge the class, and enough of them make the result right, for weights of any sign", "statement": "For every matrix, dag_to_icpdag without targets gives the same result or error as dag_to_cpdag, and imec without targets the same as mec. For a matrix of any sign dag_to_icpdag returns with all targets or with none. With more targets the skeleton is the same, directed edges stay directed, no edge is added and every consistent extension of the result is one of the result with fewer targets; imec returns a part of what it returns with fewer. If every edge has an end among the targets and dag_to_icpdag returns, the result is the DAG itself with entries 0 and 1, and the same holds for equivalence_class and equivalence_class_w_ges.", "quantifier": "all sizes, weights, targets, candidates, data, fitting procedures and orders of the sets", "why_tests_cant": "relations between calls with different targets, for all inputs, including those for which the results are not the documented ones", "anchors": ["utlvce/utils.py:dag_to_cpdag", "utlvce/utils.py:dag_to_icpdag", "utlvce/utils.py:mec", "utlvce/utils.py:imec", "utlvce/main.py:equivalence_class", "utlvce/main.py:equivalence_class_w_ges"]}
{"id": "C159", "title": "Nodes given as any integers: negative nodes count from the end, except where the code compares them with others", "statement": "For any integer as node, neighbors, adj, pa, ch and na return what they return for the node it names (a negative integer counts from the end) and raise IndexError if it names none. For a graph with non-negative weights and a zero diagonal is_clique says True if and only if any two different integers of the set name adjacent nodes, so a set that names a node twice is no clique. induced_subgraph and dag_to_icpdag do the same as for the set of named nodes. All three raise IndexError if an integer names no node, dag_to_icpdag only if dag_to_cpdag raises no error. pdag_to_icpdag raises IndexError or the error for an undirected edge at a target, whichever comes first in the order of the targets, and otherwise does the same as for the named nodes. chain_component returns the integer itself and the nodes reached from the named node along at least one undirected edge, so for a negative integer the named node is in the result only if it has an undirected edge. The Meek rules do what they do for the named nodes and raise IndexError for integers that name none, except that rule_1 does not look at j if i has no parents. chain_graph_IMEC does the same as for the named nodes and raises IndexError if an integer names none.", "quantifier": "all sizes, graphs, integers, sets of integers and orders of the sets", "why_tests_cant": "holds for every integer and every graph; tests use valid nodes on a few graphs", "anchors": ["utlvce/utils.py:neighbors", "utlvce/utils.py:adj", "utlvce/utils.py:pa", "utlvce/utils.py:ch", "utlvce/utils.py:na", "utlvce/utils.py:is_clique", "utlvce/utils.py:induced_subgraph", "utlvce/utils.py:chain_component", "utlvce/utils.py:dag_to_icpdag", "utlvce/utils.py:pdag_to_icpdag", "utlvce/utils.py:rule_1", "utlvce/utils.py:rule_2", "utlvce/utils.py:rule_3", "utlvce/utils.py:rule_4", "utlvce/utils.py:chain_graph_IMEC"]}
{"id": "C160", "title": "Paths and separation for nodes given as any integers", "statement": "For any integers fro and to and a graph without self-loops, semi_directed_paths returns, each once, all sequences of different integers from fro to to in which every integer but the first is a non-negative node and a child or neighbour of the node that its predecessor names; it raises IndexError exactly if fro names no node. So a negative to is never reached, except from the same integer. separates refuses sets that share an integer, but not sets that name the same node by different integers, and otherwise tells whether all these sequences contain an integer of S; so it says that nodes given as negative integers in B are separated from everything.", "quantifier": "all sizes, graphs without self-loops, integers, sets of integers and orders of the sets", "why_tests_cant": "holds for every integer and graph; tests use valid nodes on a few graphs", "anchors": ["utlvce/utils.py:semi_directed_paths", "utlvce/utils.py:separates"]}
{"id": "C161", "title": "score_dag ignores targets that are negative or outside the graph, and the cache compares the sets as given", "statement": "For any set of integers as targets, score_dag apart from the cache does what it does for those of the nodes 0, ..., p - 1 that are elements of the set; other integers are ignored without an error. After any sequence of calls, in every model that score_dag returns without init_model, computed or read from the cache, a variable that is not itself an element of the set has the same noise variance in all environments. So -1 is no target here, although utils counts it from the end. The cache compares the sets as they were given, so for a set with the same nodes and other integers the model is fitted again and stored beside the first.", "quantifier": "all sizes, data, graphs, sets of integers, solvers, draws, numerical libraries and sequences of calls", "why_tests_cant": "holds for every set of integers and all sequences of calls; tests use sets of nodes", "anchors": ["utlvce/score.py:Score.score_dag", "utlvce/score.py:_initialize_omegas", "utlvce/score.py:_solve_for_rest", "utlvce/score.py:_Cache"]}
