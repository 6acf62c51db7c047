import Verif.Model.FloatMore
import Verif.Props.FloatPdag
import Verif.Props.Paths
import Verif.Props.GraphEdit

/-!
# C145: the remaining graph functions on floating-point matrices
-/

namespace Verif

open Spec

variable {p : Nat}

/-- The weights of the two directions of an edge are opposite numbers. -/
def Spec.Cancelling (A : FAdj p) (i j : Fin p) : Prop := ∃ q : ℚ, q ≠ 0 ∧ A i j = .fin q ∧ A j i = .fin (-q)

/-- All entries are doubles. -/
def Spec.AllDoubles (A : FAdj p) : Prop := ∀ i j q, A i j = .fin q → IsBinary64 q

theorem fskeleton_one {A : FAdj p} (hA : AllDoubles A) (i j : Fin p) :
    (fskeleton A i j = 1 ↔ Adjacent (graphOf A) i j ∧ ¬ Cancelling A i j) ∧ (fskeleton A i j = 0 ∨ fskeleton A i j = 1) := by
  obtain ⟨h, h01⟩ := C141_skeleton A hA i j
  refine ⟨?_, h01⟩
  have h1 : fskeleton A i j = 1 ↔ ¬ fskeleton A i j = 0 := by
    rcases h01 with h0 | h0 <;> rw [h0] <;> simp
  rw [h1, h]
  unfold Adjacent Cancelling
  rw [graphOf_ne, graphOf_ne]
  constructor
  · intro hn
    refine ⟨?_, fun ⟨q, _, h2, h3⟩ => hn ⟨q, h2, h3⟩⟩
    by_contra hc
    push Not at hc
    exact hn ⟨0, hc.1, by rw [hc.2, neg_zero]⟩
  · rintro ⟨hadj, hn⟩ ⟨q, h2, h3⟩
    by_cases hq : q = 0
    · subst hq
      rw [neg_zero] at h3
      exact hadj.elim (fun h => h h2) (fun h => h h3)
    · exact hn ⟨q, hq, h2, h3⟩

theorem fskeleton_ne {A : FAdj p} (hA : AllDoubles A) (i j : Fin p) :
    fskeleton A i j ≠ 0 ↔ Adjacent (graphOf A) i j ∧ ¬ Cancelling A i j := by
  obtain ⟨h, h01⟩ := fskeleton_one hA i j
  rw [← h]
  rcases h01 with h0 | h0 <;> rw [h0] <;> simp

/-- C145: the functions that look at the entries only by comparing them with zero see the graph of the matrix, whatever the weights are:
negative numbers, infinities and NaN are edges like the others. -/
theorem C145_edges (A : FAdj p) :
    (∀ y x j, j ∈ fna y x A ↔ UndEdge (graphOf A) y j ∧ Adjacent (graphOf A) x j) ∧
    ((fdirectedEdges A).Nodup ∧ ∀ i j, (i, j) ∈ fdirectedEdges A ↔ DirEdge (graphOf A) i j) ∧
    (((fedgeWeights A).map Prod.fst).Nodup ∧ ∀ i j w, ((i, j), w) ∈ fedgeWeights A ↔ A i j ≠ .fin 0 ∧ w = A i j) ∧
    ∀ S i j, (i ∈ S ∧ j ∈ S → finducedSubgraph S A i j = A i j) ∧ (¬ (i ∈ S ∧ j ∈ S) → finducedSubgraph S A i j = .fin 0) := by
  refine ⟨fun y x j => ?_, ⟨nodup_wherePairs, fun i j => ?_⟩, ⟨?_, fun i j w => ?_⟩, fun S i j => ?_⟩
  · unfold fna
    rw [fneighbors_eq, fadj_eq]
    exact C03_na (graphOf A) y x j
  · rw [← (C04_directed_edges (graphOf A)).2 i j]
    simp only [fdirectedEdges, directedEdges, mem_wherePairs, isZero_graphOf, graphOf_fonlyDirected, decide_eq_true_eq, Bool.not_eq_true',
      decide_eq_false_iff_not, ne_eq]
  · have : (fedgeWeights A).map Prod.fst = wherePairs (fun i j => ! (A i j).isZero) := by
      unfold fedgeWeights
      rw [List.map_map]
      exact List.map_id _
    rw [this]
    exact nodup_wherePairs
  · simp only [fedgeWeights, List.mem_map, Prod.exists, mem_wherePairs, Prod.mk.injEq, Dbl.isZero, Bool.not_eq_true', decide_eq_false_iff_not]
    constructor
    · rintro ⟨a, b, h, ⟨rfl, rfl⟩, rfl⟩
      exact ⟨h, rfl⟩
    · rintro ⟨h, rfl⟩
      exact ⟨i, j, h, ⟨rfl, rfl⟩, rfl⟩
  · unfold finducedSubgraph
    by_cases h1 : i ∈ S <;> by_cases h2 : j ∈ S <;> simp [h1, h2]

theorem faccessible_eq (A : FAdj p) : faccessible A = accessible (graphOf A) := by
  funext i
  unfold faccessible accessible
  rw [fch_eq, fneighbors_eq]

theorem fpathLoop_eq (it : SetIter p) (A : FAdj p) (dst : Fin p) : ∀ (n : Nat) (st : List (PathEntry p)) (ps : List (List (Fin p))),
    fpathLoop it A dst n st ps = pathLoop it (graphOf A) dst n st ps := by
  intro n
  induction n with
  | zero => intro st ps; cases st <;> rfl
  | succ n ih =>
    intro st ps
    cases st with
    | nil => rfl
    | cons e st =>
      unfold fpathLoop pathLoop
      simp only [ih, faccessible_eq]
      split
      · rfl
      · cases e.toVisit <;> rfl

theorem fsemiDirectedPaths_eq (it : SetIter p) (a b : Fin p) (A : FAdj p) :
    fsemiDirectedPaths it a b A = semiDirectedPaths it a b (graphOf A) := by
  unfold fsemiDirectedPaths semiDirectedPaths
  rw [fpathLoop_eq, faccessible_eq]

theorem fsepLoop_eq (it : SetIter p) (S : Finset (Fin p)) (G : FAdj p) : ∀ l, fsepLoop it S G l = sepLoop it S (graphOf G) l
  | [] => rfl
  | (a, b) :: l => by
    unfold fsepLoop sepLoop
    rw [fsemiDirectedPaths_eq, fsepLoop_eq it S G l]
    rfl

theorem fcomponentPass_eq (A : FAdj p) : ∀ (l : List (Fin p)) (v t : Finset (Fin p)),
    fcomponentPass A l v t = componentPass (graphOf A) l v t
  | [], _, _ => rfl
  | j :: l, v, t => by
    unfold fcomponentPass componentPass
    simp only [fneighbors_eq]
    exact fcomponentPass_eq A l _ _

theorem fcomponentLoop_eq (it : SetIter p) (A : FAdj p) : ∀ (n : Nat) (v t : Finset (Fin p)),
    fcomponentLoop it A n v t = componentLoop it (graphOf A) n v t
  | 0, _, _ => rfl
  | n + 1, v, t => by
    unfold fcomponentLoop componentLoop
    simp only [fcomponentPass_eq, fcomponentLoop_eq it A n]

/-- C145: `semi_directed_paths`, `separates` and `chain_component` too. -/
theorem C145_paths (it : SetIter p) (A : FAdj p) :
    (NoLoopsF A → ∀ a b, ∃ paths, fsemiDirectedPaths it a b A = .ok paths ∧ paths.Nodup ∧ ∀ l, l ∈ paths ↔ SimplePath (graphOf A) a b l) ∧
    (∀ S X Y : Finset (Fin p), fseparates it S X Y A = .error .valueError ↔ ¬ (Disjoint X Y ∧ Disjoint X S ∧ Disjoint Y S)) ∧
    (∀ S X Y : Finset (Fin p), Disjoint X Y → Disjoint X S → Disjoint Y S → ∃ r, fseparates it S X Y A = .ok r ∧
      (r = true ↔ ∀ a ∈ X, ∀ b ∈ Y, ∀ w, Walk (graphOf A) a b w → ∃ s ∈ w, s ∈ S)) ∧
    ∀ i, ∃ V, fchainComponent it i A = .ok V ∧ ∀ j, j ∈ V ↔ Relation.ReflTransGen (UndEdge (graphOf A)) i j := by
  have hsep : ∀ S X Y, fseparates it S X Y A = separates it S X Y (graphOf A) := by
    intro S X Y
    unfold fseparates separates
    rw [fsepLoop_eq]
  refine ⟨fun hl a b => ?_, fun S X Y => ?_, fun S X Y h1 h2 h3 => ?_, fun i => ?_⟩
  · rw [fsemiDirectedPaths_eq]
    exact C07_semi_directed_paths it (graphOf A) (noLoops_graphOf hl) a b
  · rw [hsep]
    exact (C08_raises_iff it S X Y (graphOf A)).1
  · rw [hsep]
    exact C08_separates it S X Y (graphOf A) h1 h2 h3
  · unfold fchainComponent
    rw [fcomponentLoop_eq, graphOf_fonlyUndirected]
    exact C09_chain_component it i (graphOf A)

open Classical in
/-- C145: the functions that add the two entries of a pair (`skeleton`, `degrees`, `is_clique`, `is_complete`, `moral_graph`) overlook exactly
the edges whose two weights are opposite numbers; a rounded sum of doubles that are not opposite is not zero, and NaN and infinities are seen. -/
theorem C145_cancelling (it : SetIter p) (A : FAdj p) (hA : AllDoubles A) (hl : NoLoopsF A) :
    (∀ i j, (fskeleton A i j = 1 ↔ Adjacent (graphOf A) i j ∧ ¬ Cancelling A i j) ∧ (fskeleton A i j = 0 ∨ fskeleton A i j = 1)) ∧
    (∀ j, fdegrees A j = (Finset.univ.filter fun i => Adjacent (graphOf A) i j ∧ ¬ Cancelling A i j).card) ∧
    (∀ S, fisClique S A = true ↔ ∀ i ∈ S, ∀ j ∈ S, i ≠ j → Adjacent (graphOf A) i j ∧ ¬ Cancelling A i j) ∧
    (fisComplete A = true ↔ ∀ i j, i ≠ j → Adjacent (graphOf A) i j ∧ ¬ Cancelling A i j) ∧
    ∀ i j, (fmoralGraph it A i j = 1 ↔ Adjacent (graphOf A) i j ∧ ¬ Cancelling A i j ∨ ∃ c, VStructure (graphOf A) i c j) ∧
      (fmoralGraph it A i j = 0 ∨ fmoralGraph it A i j = 1) := by
  have hirr : ∀ a, ¬ (Adjacent (graphOf A) a a ∧ ¬ Cancelling A a a) := by
    rintro a ⟨h, -⟩
    unfold Adjacent at h
    simp [noLoops_graphOf hl a] at h
  have hne : ∀ i j, fskeleton A i j ≠ 0 ↔ Adjacent (graphOf A) i j ∧ ¬ Cancelling A i j := fskeleton_ne hA
  refine ⟨fskeleton_one hA, fun j => ?_, fun S => ?_, ?_, fun i j => ?_⟩
  · unfold fdegrees
    rw [Finset.card_filter, Nat.cast_sum]
    refine Finset.sum_congr rfl fun i _ => ?_
    obtain ⟨h, h01⟩ := fskeleton_one hA i j
    by_cases hc : Adjacent (graphOf A) i j ∧ ¬ Cancelling A i j
    · rw [if_pos hc, h.2 hc]; rfl
    · rw [if_neg hc, h01.resolve_right fun h1 => hc (h.1 h1)]; rfl
  · unfold fisClique
    rw [decide_eq_true_iff, card_pairs_eq_iff S (fun a b => fskeleton A a b ≠ 0)]
    · simp only [hne]
    · intro a _ h
      exact hirr a ((hne a a).1 h)
  · have h1 : ∀ i j, (! ((A i j).add (A j i)).isZero) = true ↔ Adjacent (graphOf A) i j ∧ ¬ Cancelling A i j := by
      intro i j
      rw [← hne]
      unfold fskeleton
      split <;> simp_all
    unfold fisComplete
    rw [decide_eq_true_iff]
    have := card_pairs_eq_iff (Finset.univ : Finset (Fin p)) (fun a b => (! ((A a b).add (A b a)).isZero) = true) (by
      intro a _ h; exact hirr a ((h1 a a).1 h))
    rw [Finset.univ_product_univ, Finset.card_univ, Fintype.card_fin] at this
    rw [this]
    simp only [h1, Finset.mem_univ, true_implies]
  · obtain ⟨h, h01⟩ := fskeleton_one hA i j
    unfold fmoralGraph
    have hv : (∃ c, (i, c, j) ∈ fvstructures it A ∨ (j, c, i) ∈ fvstructures it A) ↔ ∃ c, VStructure (graphOf A) i c j := by
      rw [fvstructures_eq]
      constructor
      · rintro ⟨c, hc | hc⟩ <;> rw [mem_vstructures] at hc
        · exact ⟨c, hc.2⟩
        · exact ⟨c, hc.2.symm⟩
      · rintro ⟨c, hc⟩
        rcases lt_or_gt_of_ne hc.2.2.1 with hlt | hlt
        · exact ⟨c, .inl ((mem_vstructures it _ i c j).2 ⟨hlt, hc⟩)⟩
        · exact ⟨c, .inr ((mem_vstructures it _ j c i).2 ⟨hlt, hc.symm⟩)⟩
    by_cases hc : ∃ c, VStructure (graphOf A) i c j
    · rw [if_pos (hv.2 hc)]
      exact ⟨⟨fun _ => .inr hc, fun _ => rfl⟩, .inr rfl⟩
    · rw [if_neg (fun h' => hc (hv.1 h'))]
      exact ⟨h.trans ⟨.inl, fun h' => h'.resolve_right hc⟩, h01⟩

/-- C145: graphs without undirected edges, in particular DAGs of any weights, have no such edges. -/
theorem C145_no_cancelling (A : FAdj p) (h : ∀ i j, A i j = .fin 0 ∨ A j i = .fin 0) (i j : Fin p) : ¬ Cancelling A i j := by
  rintro ⟨q, hq, h1, h2⟩
  rcases h i j with h' | h'
  · rw [h1] at h'
    exact hq (by injection h')
  · rw [h2] at h'
    exact hq (by injection h' with h'; linarith)

/-- C145: `to_factorization` on a matrix of weights that are not negative. -/
theorem C145_to_factorization (S : Summer) (it : SetIter p) (G : FAdj p) (hG : ∀ i j, NonnegDbl (G i j)) :
    (¬ Acyclic (graphOf G) → ftoFactorization S it G = .error .valueError) ∧
    (Acyclic (graphOf G) → ∃ f, ftoFactorization S it G = .ok f ∧ f.length = p ∧ ∀ j : Fin p, ∃ l, f[j.val]? = some l ∧
      l.Pairwise (· < ·) ∧ ∀ k, k ∈ l ↔ Edge (graphOf G) k j) := by
  have h : ftoFactorization S it G = toFactorization it (graphOf G) := by
    unfold ftoFactorization toFactorization
    rw [fisDag_eq S it hG]
    simp only [fpa_eq]
  rw [h]
  exact C70_to_factorization it (graphOf G) (graphOf_nonneg G)

/-- C145: `is_supergraph(sup, A)` compares truth values with the weights of `A`: it is true iff every weight of `A` is 0 or 1 and every edge of
`A` is an edge of `sup`. -/
theorem C145_is_supergraph (sup A : FAdj p) :
    fisSupergraph sup A = true ↔ (∀ i j, A i j = .fin 0 ∨ A i j = .fin 1) ∧ ∀ i j, Edge (graphOf A) i j → Edge (graphOf sup) i j := by
  unfold fisSupergraph
  rw [decide_eq_true_eq, ← forall_and]
  refine forall_congr' fun i => ?_
  rw [← forall_and]
  refine forall_congr' fun j => ?_
  unfold Edge
  rw [graphOf_ne, graphOf_ne]
  simp only [Dbl.isZero, Bool.and_eq_true, Bool.not_eq_true', decide_eq_false_iff_not]
  by_cases h1 : sup i j = .fin 0 <;> by_cases h2 : A i j = .fin 0
  · simp [h1, h2]
  · rw [if_neg (by simp [h1])]
    simp [h1, h2, eq_comm]
  · simp [h2]
  · rw [if_pos ⟨h1, h2⟩]
    simp [h1, h2, eq_comm]

/-- C145: `has_subgraph` and `has_supergraph` quantify it over the lists. -/
theorem C145_has_subgraph (L1 L2 : List (FAdj p)) :
    (fhasSubgraph L1 L2 = true ↔ ∀ A ∈ L1, ∃ B ∈ L2, (∀ i j, B i j = .fin 0 ∨ B i j = .fin 1) ∧
      ∀ i j, Edge (graphOf B) i j → Edge (graphOf A) i j) ∧
    (fhasSupergraph L1 L2 = true ↔ ∀ A ∈ L1, (∃ B ∈ L2, ∀ i j, Edge (graphOf A) i j → Edge (graphOf B) i j) ∧
      ∀ i j, A i j = .fin 0 ∨ A i j = .fin 1) := by
  constructor
  · induction L1 with
    | nil => simp [fhasSubgraph]
    | cons A L1 ih =>
      have hany : (L2.map (fun A2 => fisSupergraph A A2)).any id = true ↔ ∃ B ∈ L2, (∀ i j, B i j = .fin 0 ∨ B i j = .fin 1) ∧
          ∀ i j, Edge (graphOf B) i j → Edge (graphOf A) i j := by
        rw [any_map_id]
        exact exists_congr fun B => and_congr_right fun _ => C145_is_supergraph A B
      rw [List.forall_mem_cons, ← ih, ← hany, fhasSubgraph]
      cases (L2.map (fun A2 => fisSupergraph A A2)).any id <;> simp
  · induction L1 with
    | nil => simp [fhasSupergraph]
    | cons A L1 ih =>
      have hany : (L2.map (fun A2 => fisSupergraph A2 A)).any id = true ↔ (∃ B ∈ L2, ∀ i j, Edge (graphOf A) i j → Edge (graphOf B) i j) ∧
          ∀ i j, A i j = .fin 0 ∨ A i j = .fin 1 := by
        rw [any_map_id]
        constructor
        · rintro ⟨B, hB, h⟩
          have h := (C145_is_supergraph B A).1 h
          exact ⟨⟨B, hB, h.2⟩, h.1⟩
        · rintro ⟨⟨B, hB, h⟩, h'⟩
          exact ⟨B, hB, (C145_is_supergraph B A).2 ⟨h', h⟩⟩
      rw [List.forall_mem_cons, ← ih, ← hany, fhasSupergraph]
      cases (L2.map (fun A2 => fisSupergraph A2 A)).any id <;> simp

theorem asBinary_graphOf (A : FAdj p) : asBinary (graphOf A) = fasBinary A := by
  funext i j
  unfold asBinary fasBinary
  simp only [isZero_graphOf]
  by_cases h : graphOf A i j = 0 <;> simp [h]

/-- C145: `add_edges` and `remove_edges` see the graph of the matrix for all weights, and return integers. -/
theorem C145_random_edges (it : SetIter p) (rng : Rng) (A : FAdj p) (n : Nat) :
    (Acyclic (graphOf A) → (n : Int) ≤ p * (p - 1) / 2 - nnz (graphOf A) → ∃ S, faddEdges it rng A n = .ok S ∧ ZeroOne S ∧ Acyclic S ∧
      (∀ i j, Edge (graphOf A) i j → Edge S i j) ∧ nnz S = nnz (graphOf A) + n) ∧
    (Acyclic (graphOf A) → (p : Int) * (p - 1) / 2 - nnz (graphOf A) < n → faddEdges it rng A n = .error .valueError) ∧
    (fremoveEdges rng A n = .error .valueError ↔ (Finset.univ.filter (fun e : Fin p × Fin p => DirEdge (graphOf A) e.1 e.2)).card < n) ∧
    ∀ R, fremoveEdges rng A n = .ok R → ZeroOne R ∧ (∀ i j, Edge R i j → Edge (graphOf A) i j) ∧
      (∀ i j, Edge (graphOf A) i j → ¬ Edge R i j → DirEdge (graphOf A) i j) ∧ nnz R + n = nnz (graphOf A) := by
  have h1 : faddEdges it rng A n = addEdges it rng (graphOf A) n := by
    unfold faddEdges addEdges
    rw [asBinary_graphOf]
  have h2 : fremoveEdges rng A n = removeEdges rng (graphOf A) n := by
    unfold fremoveEdges removeEdges
    rw [asBinary_graphOf]
  rw [h1, h2]
  refine ⟨fun hac hn => C28_add_edges it rng (graphOf A) hac n hn, fun hac hn => C28_raises it rng (graphOf A) hac n hn,
    (C29_raises_iff rng (graphOf A) n).1, fun R hR => ?_⟩
  obtain ⟨r1, r2, r3, r4, -⟩ := C29_remove_edges rng (graphOf A) R n hR
  exact ⟨r1, r2, r3, r4⟩

/-- An edge `0 - 1` with opposite weights, an edge `1 - 2` with weights 1 and -3/2, and an edge from 0 to 2 of weight NaN. -/
def cancelA : FAdj 3 := ![![.fin 0, .fin (1 / 2), .nan], ![.fin (-1 / 2), .fin 0, .fin 1], ![.fin 0, .fin (-3 / 2), .fin 0]]

/-- C145: `is_complete`, `is_clique` and `degrees` of a complete graph that contains such an edge. -/
theorem C145_cancelling_example : (∀ i j, i ≠ j → Adjacent (graphOf cancelA) i j) ∧ AllDoubles cancelA ∧ NoLoopsF cancelA ∧
    Cancelling cancelA 0 1 ∧ fisComplete cancelA = false ∧ fisClique {0, 1} cancelA = false ∧ fisClique {1, 2} cancelA = true ∧
    fisClique {0, 2} cancelA = true ∧ fdegrees cancelA = ![1, 1, 2] := by
  have hA : AllDoubles cancelA := by
    have h0 : IsBinary64 0 := ⟨0, 0, by norm_num, by norm_num, by norm_num, by norm_num⟩
    have h1 : IsBinary64 (1 / 2) := ⟨1, -1, by norm_num, by norm_num, by norm_num, by norm_num⟩
    have h2 : IsBinary64 (-1 / 2) := ⟨-1, -1, by norm_num, by norm_num, by norm_num, by norm_num⟩
    have h3 : IsBinary64 1 := ⟨1, 0, by norm_num, by norm_num, by norm_num, by norm_num⟩
    have h4 : IsBinary64 (-3 / 2) := ⟨-3, -1, by norm_num, by norm_num, by norm_num, by norm_num⟩
    have hc : ∀ i j, cancelA i j = .nan ∨ cancelA i j = .fin 0 ∨ cancelA i j = .fin (1 / 2) ∨ cancelA i j = .fin (-1 / 2) ∨
        cancelA i j = .fin 1 ∨ cancelA i j = .fin (-3 / 2) := by decide +kernel
    intro i j q h
    rcases hc i j with hc | hc | hc | hc | hc | hc <;> rw [hc] at h <;>
      first | exact Dbl.noConfusion h | (injection h with h; rw [← h]; assumption)
  refine ⟨?_, hA, ?_, ⟨1 / 2, by norm_num, rfl, ?_⟩, by decide +kernel, by decide +kernel, by decide +kernel, by decide +kernel,
    by decide +kernel⟩
  · unfold Adjacent; decide +kernel
  · unfold NoLoopsF; decide +kernel
  · show Dbl.fin (-1 / 2) = Dbl.fin (-(1 / 2))
    norm_num

example : fisSupergraph cancelA cancelA = false ∧
    fisSupergraph cancelA (![![.fin 0, .fin 1, .fin 1], ![.fin 0, .fin 0, .fin 0], ![.fin 0, .fin 0, .fin 0]] : FAdj 3) = true ∧
    fdirectedEdges cancelA = [(0, 2)] :=
  ⟨by decide +kernel, by decide +kernel, by decide +kernel⟩

end Verif
