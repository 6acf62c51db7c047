import Verif.Props.TopoAny
import Verif.Proof.OrderAny

/-!
C149: what `order_edges`, `dag_to_cpdag`, `dag_to_icpdag`, `mec` and `imec` do with a DAG whose weights have any sign, where
`topological_ordering` may list nodes twice (C146).  `order.idxOf v` is the place at which `v` occurs first in the list,
`order.reverse.idxOf v` its distance from the end, counted from where it occurs last.
-/

namespace Verif
open Spec
variable {p : Nat}

theorem chain_nonneg {A : Adj p} (h : isChainGraph A = true) : Nonneg A := by
  unfold isChainGraph at h
  rw [decide_eq_true_iff] at h
  intro i j
  rw [h i j]
  unfold chainGraph
  split <;> simp

theorem orderEdges_dag (it : SetIter p) {A : Adj p} (hac : Acyclic A) {order : List (Fin p)} (h : topologicalOrdering it A = .ok order) :
    (∀ v, v ∈ order) ∧ isDag it A = true ∧ orderEdges it A = orderEdgesLoop order (p * p) 1 (fun a b => if A a b ≠ 0 then -1 else 0) := by
  obtain ⟨hd, l, hl, hall, -⟩ := C146_dag_accepted it A hac
  rw [h] at hl
  injection hl with hl
  subst hl
  refine ⟨hall, hd, ?_⟩
  unfold orderEdges
  rw [hd, h]
  simp

theorem forderEdges_dag (S : Summer) (it : SetIter p) {A : FAdj p} (hac : Acyclic (graphOf A)) {order : List (Fin p)}
    (h : ftopologicalOrdering S it A = .ok order) :
    (∀ v, v ∈ order) ∧ fisDag S it A = true ∧
      forderEdges S it A = orderEdgesLoop order (p * p) 1 (fun a b => if graphOf A a b ≠ 0 then -1 else 0) := by
  obtain ⟨hd, l, hl, hall, -⟩ := C146_float_dag S it A hac
  rw [h] at hl
  injection hl with hl
  subst hl
  refine ⟨hall, hd, ?_⟩
  unfold forderEdges
  rw [hd, h]
  simp [isZero_graphOf]

/-- C149: for a DAG with weights of any sign, `order_edges` and `dag_to_cpdag` return exactly when every edge goes forward in the list of
`topological_ordering`, where a node that occurs twice counts where it occurs first.  The labels are then the numbers from one to the number of
edges, and the graph that is returned has the adjacencies of the DAG.  Otherwise these functions, `dag_to_icpdag`, `mec` and `imec` raise an
`IndexError`. -/
theorem C149_returns_iff (it : SetIter p) (A : Adj p) (hac : Acyclic A) (order : List (Fin p)) (h : topologicalOrdering it A = .ok order) :
    ((∀ a b, Edge A a b → order.idxOf a < order.idxOf b) →
      (∃ O, orderEdges it A = .ok O ∧ (∀ a b, O a b ≠ 0 ↔ Edge A a b) ∧
        (nonzeroEntries O).Perm ((List.range (nnz O)).map (fun k : Nat => (k : Int) + 1))) ∧
      ∃ C, dagToCpdag it A = .ok C ∧ ∀ a b, Adjacent C a b ↔ Adjacent A a b) ∧
    ((∃ a b, Edge A a b ∧ order.idxOf b < order.idxOf a) →
      orderEdges it A = .error .indexError ∧ dagToCpdag it A = .error .indexError ∧ (∀ I, dagToIcpdag it A I = .error .indexError) ∧
      (∀ c, mec it A c = .error .indexError) ∧ ∀ I c, (∀ i ∈ I, 0 ≤ i ∧ i < (p : Int)) → imec it A I c = .error .indexError) := by
  obtain ⟨hall, hd, ho⟩ := orderEdges_dag it hac h
  obtain ⟨h1, h2⟩ := order_core it hac hall
  constructor
  · intro hf
    obtain ⟨O, L, hO, hE, hp, hL, hadj, -⟩ := h1 hf
    rw [← ho] at hO
    refine ⟨⟨O, hO, hE, hp⟩, cpdagOf L, ?_, hadj⟩
    unfold dagToCpdag
    rw [hO]
    dsimp only
    rw [hL]
    rfl
  · intro hb
    have he : orderEdges it A = .error .indexError := by rw [ho, h2 hb]
    have hc : dagToCpdag it A = .error .indexError := by unfold dagToCpdag; rw [he]
    have hi : ∀ I, dagToIcpdag it A I = .error .indexError := by intro I; unfold dagToIcpdag; rw [hc]
    have hch : isChainGraph A = false := by
      rw [← Bool.not_eq_true]
      intro hch
      obtain ⟨a, b, hab, hlt⟩ := hb
      exact absurd (((topologicalOrdering_spec it A (chain_nonneg hch)).1 order h).idx_lt hab) (by omega)
    refine ⟨he, hc, hi, fun c => ?_, fun I c hI => ?_⟩
    · unfold mec
      rw [hd, hch, hc]
      simp
    · unfold imec
      simp only [hd, hch, hi]
      simp
      exact hI

/-- C149: the same for a matrix of doubles whose graph is acyclic, infinities and NaN included, and for every order of summation. -/
theorem C149_float_returns_iff (S : Summer) (it : SetIter p) (A : FAdj p) (hac : Acyclic (graphOf A)) (order : List (Fin p))
    (h : ftopologicalOrdering S it A = .ok order) :
    ((∀ a b, Edge (graphOf A) a b → order.idxOf a < order.idxOf b) →
      (∃ O, forderEdges S it A = .ok O ∧ (∀ a b, O a b ≠ 0 ↔ Edge (graphOf A) a b) ∧
        (nonzeroEntries O).Perm ((List.range (nnz O)).map (fun k : Nat => (k : Int) + 1))) ∧
      ∃ C, fdagToCpdag S it A = .ok C ∧ ∀ a b, Adjacent C a b ↔ Adjacent (graphOf A) a b) ∧
    ((∃ a b, Edge (graphOf A) a b ∧ order.idxOf b < order.idxOf a) →
      forderEdges S it A = .error .indexError ∧ fdagToCpdag S it A = .error .indexError ∧ (∀ I, fdagToIcpdag S it A I = .error .indexError) ∧
      fmec S it A false = .error .indexError ∧ ∀ I, (∀ i ∈ I, 0 ≤ i ∧ i < (p : Int)) → fimec S it A I false = .error .indexError) := by
  obtain ⟨hall, hd, ho⟩ := forderEdges_dag S it hac h
  obtain ⟨h1, h2⟩ := order_core it hac hall
  constructor
  · intro hf
    obtain ⟨O, L, hO, hE, hp, hL, hadj, -⟩ := h1 hf
    rw [← ho] at hO
    refine ⟨⟨O, hO, hE, hp⟩, cpdagOf L, ?_, hadj⟩
    unfold fdagToCpdag
    rw [hO]
    dsimp only
    rw [hL]
    rfl
  · intro hb
    have he : forderEdges S it A = .error .indexError := by rw [ho, h2 hb]
    have hc : fdagToCpdag S it A = .error .indexError := by unfold fdagToCpdag; rw [he]
    have hi : ∀ I, fdagToIcpdag S it A I = .error .indexError := by intro I; unfold fdagToIcpdag; rw [hc]
    refine ⟨he, hc, hi, ?_, fun I hI => ?_⟩
    · unfold fmec
      rw [hd, hc]
      simp
    · unfold fimec
      simp only [hd, hi]
      simp
      exact hI

/-! ### When the result is right -/

theorem isConsistentExtension_dag (it : SetIter p) {A : Adj p} (hac : Acyclic A) (P : Adj p) :
    isConsistentExtension it A P = isConsistentExtension it (support A) P := by
  unfold isConsistentExtension
  rw [(C146_dag_accepted it A hac).1, (C146_dag_accepted it (support A) (support_acyclic hac)).1,
    vstructures_pattern it (B := support A) (fun i j => support_eq.symm), skeleton_support hac]
  simp only [ne_eq, support_eq]

theorem dagToIcpdag_of_cpdag (it : SetIter p) {A : Adj p} (hac : Acyclic A) (hc : dagToCpdag it A = dagToCpdag it (support A)) (I : List (Fin p)) :
    dagToIcpdag it A I = dagToIcpdag it (support A) I := by
  unfold dagToIcpdag targetEdges
  rw [hc]
  simp only [isConsistentExtension_dag it hac, pa_pattern (B := support A) (fun i j => support_eq.symm),
    ch_pattern (B := support A) (fun i j => support_eq.symm)]

theorem cpdag_unique (it : SetIter p) {G C : Adj p} (hG : Nonneg G) (hac : Acyclic G) (hC : ZeroOne C)
    (h : ∀ i j, Edge C i j ↔ ∃ H, Acyclic H ∧ MarkovEquiv G H ∧ Edge H i j) : dagToCpdag it G = .ok C := by
  obtain ⟨C', h1, h2, h3⟩ := dagToCpdag_spec it hG hac
  rw [h1, zeroOne_ext h2 hC fun i j => (h3 i j).trans (h i j).symm]

/-- C149: if every edge goes forward both where its nodes occur first and where they occur last, `dag_to_cpdag` and `dag_to_icpdag` return the
essential graphs, and `mec` and `imec` each member of the class once. -/
theorem C149_correct (it : SetIter p) (A : Adj p) (hac : Acyclic A) (order : List (Fin p)) (h : topologicalOrdering it A = .ok order)
    (hf : ∀ a b, Edge A a b → order.idxOf a < order.idxOf b) (hb : ∀ a b, Edge A a b → order.reverse.idxOf b < order.reverse.idxOf a)
    (c : Bool) (hp : 0 < p ∨ c = false) :
    (∃ C, dagToCpdag it A = .ok C ∧ ZeroOne C ∧ ∀ i j, Edge C i j ↔ ∃ H, Acyclic H ∧ MarkovEquiv A H ∧ Edge H i j) ∧
    (∀ I : List (Fin p), ∃ P, dagToIcpdag it A I = .ok P ∧ ZeroOne P ∧
      ∀ i j, Edge P i j ↔ ∃ H, Acyclic H ∧ IEquiv I.toFinset A H ∧ Edge H i j) ∧
    (∃ l, mec it A c = .ok l ∧ l.Nodup ∧ ∀ H, H ∈ l ↔ ZeroOne H ∧ Acyclic H ∧ MarkovEquiv A H) ∧
    ∀ I : Finset (Fin p), ∃ l, imec it A (I.image fun i : Fin p => (i.val : Int)) c = .ok l ∧ l.Nodup ∧
      ∀ H, H ∈ l ↔ ZeroOne H ∧ Acyclic H ∧ IEquiv I A H := by
  obtain ⟨hall, hd, ho⟩ := orderEdges_dag it hac h
  obtain ⟨O, L, hO, -, -, hL, -, hlab⟩ := (order_core it hac hall).1 hf
  obtain ⟨pos, hlab⟩ := hlab hb
  rw [← ho] at hO
  have hs := support_acyclic hac
  have hm := markovEquiv_support A
  have hcp : dagToCpdag it A = .ok (cpdagOf L) := by
    unfold dagToCpdag
    rw [hO]
    dsimp only
    rw [hL]
    rfl
  have hc : dagToCpdag it A = dagToCpdag it (support A) := by
    rw [hcp, cpdag_unique it (support_nonneg A) hs (cpdagOf_zeroOne L)]
    intro i j
    rw [hlab.edge_cpdag_iff]
    exact exists_congr fun H => and_congr_right fun _ => and_congr_left fun _ => ⟨hm.symm.trans, hm.trans⟩
  have hds : isDag it (support A) = true := (C146_dag_accepted it (support A) hs).1
  have hi := dagToIcpdag_of_cpdag it hac hc
  have hie : ∀ (I : Finset (Fin p)) H, IEquiv I (support A) H ↔ IEquiv I A H := fun I H =>
    ⟨fun h => ⟨hm.trans h.1, fun i hi k => edge_support.symm.trans (h.2 i hi k)⟩,
        fun h => ⟨hm.symm.trans h.1, fun i hi k => edge_support.trans (h.2 i hi k)⟩⟩
  refine ⟨⟨_, hcp, cpdagOf_zeroOne L, hlab.edge_cpdag_iff⟩, fun I => ?_, ?_, fun I => ?_⟩
  · obtain ⟨P, hP, h⟩ := C21_interventional_essential_graph it (support A) (support_nonneg A) hs I
    refine ⟨P, by rw [hi, hP], fun i j => ?_, fun i j => ?_⟩
    · rw [(h i j).1, (h i j).2]
      exact (em _).symm
    · have : Edge P i j ↔ P i j = 1 := by
        unfold Edge
        rw [ne_eq, (h i j).2, (h i j).1, not_not]
      rw [this, (h i j).1]
      simp only [hie]
  · cases hch : isChainGraph A
    swap
    · exact C24_mec it A (chain_nonneg hch) hac c hp
    obtain ⟨l, hl, hnd, h⟩ := C24_mec it (support A) (support_nonneg A) hs false (.inr rfl)
    refine ⟨l, ?_, hnd, fun H => ?_⟩
    · rw [← hl]
      unfold mec
      rw [hd, hds, hc, hch]
      simp
    · rw [h]
      exact and_congr_right fun _ => and_congr_right fun _ => ⟨hm.trans, hm.symm.trans⟩
  · cases hch : isChainGraph A
    swap
    · exact C26_imec it A (chain_nonneg hch) hac I c hp
    obtain ⟨l, hl, hnd, h⟩ := C26_imec it (support A) (support_nonneg A) hs I false (.inr rfl)
    refine ⟨l, ?_, hnd, fun H => ?_⟩
    · rw [← hl]
      unfold imec
      simp only [hd, hds, hi, hch]
      simp
    · rw [h, hie]

/-- C149: the same for doubles. -/
theorem C149_float_correct (S : Summer) (it : SetIter p) (A : FAdj p) (hA : AllDoubles A) (hac : Acyclic (graphOf A)) (order : List (Fin p))
    (h : ftopologicalOrdering S it A = .ok order) (hf : ∀ a b, Edge (graphOf A) a b → order.idxOf a < order.idxOf b)
    (hb : ∀ a b, Edge (graphOf A) a b → order.reverse.idxOf b < order.reverse.idxOf a) (c : Bool) (hp : 0 < p ∨ c = false) :
    fdagToCpdag S it A = dagToCpdag it (graphOf A) ∧ (∀ I, fdagToIcpdag S it A I = dagToIcpdag it (graphOf A) I) ∧
    (∃ C, fdagToCpdag S it A = .ok C ∧ ZeroOne C ∧ ∀ i j, Edge C i j ↔ ∃ H, Acyclic H ∧ MarkovEquiv (graphOf A) H ∧ Edge H i j) ∧
    (∃ l, fmec S it A c = .ok l ∧ l.Nodup ∧ ∀ H, H ∈ l ↔ ZeroOne H ∧ Acyclic H ∧ MarkovEquiv (graphOf A) H) ∧
    ∀ I : Finset (Fin p), ∃ l, fimec S it A (I.image fun i : Fin p => (i.val : Int)) c = .ok l ∧ l.Nodup ∧
      ∀ H, H ∈ l ↔ ZeroOne H ∧ Acyclic H ∧ IEquiv I (graphOf A) H := by
  obtain ⟨hall, hd, ho⟩ := forderEdges_dag S it hac h
  obtain ⟨O, L, hO, -, -, hL, -, hlab⟩ := (order_core it hac hall).1 hf
  obtain ⟨pos, hlab⟩ := hlab hb
  rw [← ho] at hO
  have hcp : fdagToCpdag S it A = .ok (cpdagOf L) := by
    unfold fdagToCpdag
    rw [hO]
    dsimp only
    rw [hL]
    rfl
  have hc : fdagToCpdag S it A = dagToCpdag it (graphOf A) := by
    rw [hcp, cpdag_unique it (graphOf_nonneg A) hac (cpdagOf_zeroOne L) hlab.edge_cpdag_iff]
  have hdg : isDag it (graphOf A) = true := (C146_dag_accepted it _ hac).1
  have hsk : fskeleton A = skeleton (graphOf A) := by
    funext i j
    have hnc : ¬ Cancelling A i j := by
      rintro ⟨q, hq, h1, h2⟩
      have e1 : Edge (graphOf A) i j := graphOf_ne.2 (by rw [h1]; simpa using hq)
      have e2 : Edge (graphOf A) j i := graphOf_ne.2 (by rw [h2]; simpa using hq)
      exact e2 (hac.dir_iff.2 e1).2
    obtain ⟨h1, h01⟩ := fskeleton_one hA i j
    have h2 : skeleton (graphOf A) i j = if Adjacent (graphOf A) i j then 1 else 0 := by
      unfold skeleton Adjacent
      rcases graphOf_zeroOne A i j with h | h <;> rcases graphOf_zeroOne A j i with h' | h' <;> simp [h, h']
    rw [h2]
    split
    · rename_i hadj; exact h1.2 ⟨hadj, hnc⟩
    · rename_i hadj; exact h01.resolve_right fun h => hadj (h1.1 h).1
  have hi : ∀ I, fdagToIcpdag S it A I = dagToIcpdag it (graphOf A) I := by
    intro I
    unfold fdagToIcpdag dagToIcpdag
    have ht : ftargetEdges it A I = targetEdges it (graphOf A) I := by
      unfold ftargetEdges targetEdges
      simp only [fch_eq, fpa_eq]
    have he : ∀ P, fisConsistentExtension S it A P = isConsistentExtension it (graphOf A) P := by
      intro P
      unfold fisConsistentExtension isConsistentExtension
      rw [hd, hdg, fvstructures_eq, hsk]
      simp only [isZero_graphOf, decide_eq_false_iff_not, ne_eq]
    rw [hc, ht]
    simp only [he]
    rfl
  have hp' : 0 < p ∨ (c && fisChainGraph A) = false := hp.imp_right fun h => by rw [h]; rfl
  refine ⟨hc, hi, ⟨_, hcp, cpdagOf_zeroOne L, hlab.edge_cpdag_iff⟩, ?_, fun I => ?_⟩
  · obtain ⟨l, hl, hnd, h⟩ := C24_mec it (graphOf A) (graphOf_nonneg A) hac (c && fisChainGraph A) hp'
    refine ⟨l, ?_, hnd, h⟩
    rw [← hl]
    unfold fmec mec
    rw [hd, hdg, hc]
    cases hch : fisChainGraph A
    · simp only [Bool.and_false, Bool.false_and]
      rfl
    · rw [fisChainGraph_spec hch, isChainGraph_chainGraph]
      simp only [Bool.and_true]
      rfl
  · obtain ⟨l, hl, hnd, h⟩ := C26_imec it (graphOf A) (graphOf_nonneg A) hac I (c && fisChainGraph A) hp'
    refine ⟨l, ?_, hnd, h⟩
    rw [← hl]
    unfold fimec imec
    simp only [hd, hdg, hi]
    cases hch : fisChainGraph A
    · simp only [Bool.and_false, Bool.false_and]
      rfl
    · have hg := fisChainGraph_spec hch
      have hii : ∀ T, fchainGraphIMEC A T = chainGraphIMEC (graphOf A) T := by
        intro T
        unfold fchainGraphIMEC chainGraphIMEC
        rw [hch, hg, isChainGraph_chainGraph]
        have hA' : ∀ k i, A k i = .fin (chainGraph p k i) := by
          unfold fisChainGraph at hch
          simpa using hch
        simp only [hA', Dbl.fin.injEq, Int.cast_inj]
        simp only [eq_comm]
      have hci : isChainGraph (graphOf A) = true := by rw [hg, isChainGraph_chainGraph]
      simp only [hci, Bool.and_true, hii]
      rfl

/-- C149: in particular `mec` and `imec` return each member of the class once for a matrix of doubles none of whose columns with an edge adds up
to zero. -/
theorem C149_float_classes (S : Summer) (it : SetIter p) (A : FAdj p) (hA : AllDoubles A) (hac : Acyclic (graphOf A))
    (hn : ∀ v, (∃ u, A u v ≠ .fin 0) → fcolSum S A v ≠ .fin 0) (c : Bool) (hp : 0 < p ∨ c = false) :
    (∃ l, fmec S it A c = .ok l ∧ l.Nodup ∧ ∀ H, H ∈ l ↔ ZeroOne H ∧ Acyclic H ∧ MarkovEquiv (graphOf A) H) ∧
    ∀ I : Finset (Fin p), ∃ l, fimec S it A (I.image fun i : Fin p => (i.val : Int)) c = .ok l ∧ l.Nodup ∧
      ∀ H, H ∈ l ↔ ZeroOne H ∧ Acyclic H ∧ IEquiv I (graphOf A) H := by
  obtain ⟨-, l, hl, -, -, h⟩ := C146_float_dag S it A hac
  have ht := (h hn).1
  have hrev : ∀ v, l.reverse.idxOf v + l.idxOf v + 1 = l.length := by
    intro v
    obtain ⟨s, t, hst⟩ := List.append_of_mem (ht.2.1 v)
    have hnd := ht.1
    rw [hst] at hnd ⊢
    have hs : v ∉ s := fun hv => (List.nodup_append.1 hnd).2.2 v hv v (by simp) rfl
    have htl : v ∉ t := (List.nodup_cons.1 (List.nodup_append.1 hnd).2.1).1
    rw [List.idxOf_append_of_notMem hs, List.reverse_append, List.reverse_cons, List.append_assoc,
      List.idxOf_append_of_notMem (by simpa using htl)]
    simp
    omega
  obtain ⟨-, -, -, h1, h2⟩ := C149_float_correct S it A hA hac l hl (fun a b hab => ht.idx_lt hab) (fun a b hab => by
    have h1 := hrev a
    have h2 := hrev b
    have h3 := ht.idx_lt hab
    omega) c hp
  exact ⟨h1, h2⟩

/-! ### Both cases occur, and the result may be wrong -/

-- the collider with opposite weights: the list is [2, 1, 0, 2] and the edge 0 → 2 goes backward
example (it : SetIter 3) : Acyclic colliderA ∧ topologicalOrdering it colliderA = .ok [2, 1, 0, 2] ∧
    ∃ a b, Edge colliderA a b ∧ [2, 1, 0, 2].idxOf b < [2, 1, 0, 2].idxOf a :=
  ⟨colliderA_acyclic, colliderA_ordering it, 0, 2, by decide +kernel, by decide +kernel⟩

/-- The collider `1 → 0 ← 2` with opposite weights. -/
def colliderB : Adj 3 := ![![0, 0, 0], ![1, 0, 0], ![-1, 0, 0]]

theorem colliderB_ordering (it : SetIter 3) : topologicalOrdering it colliderB = .ok [2, 1, 0, 0] := by
  unfold topologicalOrdering
  rw [if_neg (by decide +kernel)]
  have h0 : (whereVec (fun j : Fin 3 => decide (colSum colliderB j = 0))).reverse = [2, 1, 0] := by decide +kernel
  have h1 : ch 2 colliderB = {0} := by decide +kernel
  have h2 : pa 0 (setEntry colliderB 2 0 0) = {1} := by decide +kernel
  have h3 : ch 1 (setEntry colliderB 2 0 0) = {0} := by decide +kernel
  have h4 : pa 0 (setEntry (setEntry colliderB 2 0 0) 1 0 0) = ∅ := by decide +kernel
  have h5 : ch 0 (setEntry (setEntry colliderB 2 0 0) 1 0 0) = ∅ := by decide +kernel
  have h7 : ¬ sumAll (setEntry (setEntry colliderB 2 0 0) 1 0 0) > 0 := by decide +kernel
  rw [h0, show 3 * 3 + 3 = 8 + 1 + 1 + 1 + 1 from rfl, topoLoop, h1, toList_singleton]
  simp only [topoInner, topoLoop, h2, h3, h4, h5, toList_empty, toList_singleton, Finset.card_singleton, one_ne_zero, if_false,
    Finset.card_empty, if_true, List.nil_append, List.cons_append, h7]

-- if the collider is node 0, it is also named twice, but after its parents: the hypotheses of `C149_correct` hold
example (it : SetIter 3) : Acyclic colliderB ∧ topologicalOrdering it colliderB = .ok [2, 1, 0, 0] ∧ ¬ NoZeroSums colliderB ∧
    (∀ a b, Edge colliderB a b → [2, 1, 0, 0].idxOf a < [2, 1, 0, 0].idxOf b) ∧
    ∀ a b, Edge colliderB a b → [2, 1, 0, 0].reverse.idxOf b < [2, 1, 0, 0].reverse.idxOf a := by
  refine ⟨?_, colliderB_ordering it, ?_, by unfold Edge; decide +kernel, by unfold Edge; decide +kernel⟩
  · refine acyclic_of_rank (fun v : Fin 3 => 3 - v.val) ?_
    unfold Edge
    decide +kernel
  · unfold NoZeroSums Edge
    decide +kernel

/-- Two triangles that share node 0, in which the weights of the edges into node 0 add up to zero. -/
def twoTriangles : Adj 5 := fun a b => ![![0, 0, 0, 1, 1], ![1, 0, 1, 0, 0], ![-1, 0, 0, 0, 0], ![0, 0, 0, 0, 1], ![0, 0, 0, 0, 0]] a b


theorem twoTriangles_acyclic : Acyclic twoTriangles := by
  refine acyclic_of_rank (fun v : Fin 5 => (![2, 0, 1, 3, 4] : Fin 5 → Nat) v) ?_
  unfold Edge
  decide +kernel

theorem toList_pair (it : SetIter p) {a b : Fin p} (hab : a ≠ b) : it.toList {a, b} = [a, b] ∨ it.toList {a, b} = [b, a] := by
  have hp : (it.toList {a, b}).Perm [a, b] := by
    refine (List.perm_ext_iff_of_nodup (it.nodup _) (by simpa using hab)).2 fun x => ?_
    rw [it.mem]
    simp
  generalize it.toList {a, b} = l at hp
  have hl := hp.length_eq
  match l, hl with
  | [x, y], _ =>
    have hx : x = a ∨ x = b := by simpa using (hp.mem_iff (a := x)).1 (by simp)
    have hy : y = a ∨ y = b := by simpa using (hp.mem_iff (a := y)).1 (by simp)
    have hnd := hp.nodup_iff.2 (by simpa using hab)
    have hxy : x ≠ y := by simpa using hnd
    rcases hx with rfl | rfl <;> rcases hy with rfl | rfl
    · exact absurd rfl hxy
    · exact .inl rfl
    · exact .inr rfl
    · exact absurd rfl hxy

theorem twoTriangles_ordering (it : SetIter 5) : topologicalOrdering it twoTriangles = .ok [1, 2, 0, 3, 4, 0] := by
  obtain ⟨-, l, hl, -⟩ := C146_dag_accepted it twoTriangles twoTriangles_acyclic
  have h := topologicalOrdering_ok hl
  have h0 : (whereVec (fun j : Fin 5 => decide (colSum twoTriangles j = 0))).reverse = [1, 0] := by decide +kernel
  rw [h0] at h
  rw [hl]
  have step : ∀ (n : Nat) (A A' : Adj 5) (v : Fin 5) (sinks sinks' ord : List (Fin 5)), topoInner v (it.toList (ch v A)) A sinks = (A', sinks') →
      topoLoop it (n + 1) A (v :: sinks) ord = topoLoop it n A' sinks' (ord ++ [v]) := by
    intro n A A' v sinks sinks' ord h
    rw [topoLoop, h]
  have hfin : topoLoop it (5 * 5 + 5) twoTriangles [1, 0] [] = .ok (fun _ _ => 0, [1, 2, 0, 3, 4, 0]) := by
    rw [step 29 twoTriangles (fun a b => ![![0, 0, 0, 1, 1], ![0, 0, 0, 0, 0], ![-1, 0, 0, 0, 0], ![0, 0, 0, 0, 1], ![0, 0, 0, 0, 0]] a b) 1 [0] [2, 0] []
        (by
          rw [show ch 1 twoTriangles = {0, 2} by decide +kernel]
          rcases toList_pair it (show (0 : Fin 5) ≠ 2 by decide) with h | h <;> rw [h] <;> decide +kernel),
      step 28 _ (fun a b => ![![0, 0, 0, 1, 1], ![0, 0, 0, 0, 0], ![0, 0, 0, 0, 0], ![0, 0, 0, 0, 1], ![0, 0, 0, 0, 0]] a b) 2 [0] [0, 0] _
        (by
          rw [show ch 2 _ = {0} by decide +kernel, toList_singleton]
          decide +kernel),
      step 27 _ (fun a b => ![![0, 0, 0, 0, 0], ![0, 0, 0, 0, 0], ![0, 0, 0, 0, 0], ![0, 0, 0, 0, 1], ![0, 0, 0, 0, 0]] a b) 0 [0] [3, 0] _
        (by
          rw [show ch 0 _ = {3, 4} by decide +kernel]
          rcases toList_pair it (show (3 : Fin 5) ≠ 4 by decide) with h | h <;> rw [h] <;> decide +kernel),
      step 26 _ (fun _ _ => 0) 3 [0] [4, 0] _
        (by
          rw [show ch 3 _ = {4} by decide +kernel, toList_singleton]
          decide +kernel),
      step 25 _ (fun _ _ => 0) 4 [0] [0] _
        (by
          rw [show ch 4 _ = ∅ by decide +kernel, toList_empty]
          decide +kernel),
      step 24 _ (fun _ _ => 0) 0 [] [] _
        (by
          rw [show ch 0 _ = ∅ by decide +kernel, toList_empty]
          decide +kernel), topoLoop]
    simp
  rw [hfin] at h
  injection h with h
  rw [← h]

/-- The graph that the code returns for it. -/
def twoTrianglesOut : Adj 5 := fun a b => ![![0, 1, 1, 1, 1], ![1, 0, 1, 0, 0], ![1, 1, 0, 0, 0], ![1, 0, 0, 0, 1], ![0, 0, 0, 0, 0]] a b

def twoTrianglesOrdered : Adj 5 := fun a b => ![![0, 0, 0, 3, 2], ![4, 0, 6, 0, 0], ![5, 0, 0, 0, 0], ![0, 0, 0, 0, 1], ![0, 0, 0, 0, 0]] a b

/-- A Markov equivalent DAG: all edges away from node 4. -/
def twoTrianglesH : Adj 5 := fun a b => ![![0, 1, 1, 0, 0], ![0, 0, 1, 0, 0], ![0, 0, 0, 0, 0], ![1, 0, 0, 0, 0], ![1, 0, 0, 1, 0]] a b

theorem ok_of_check {α : Type} [DecidableEq α] {x : Except Err α} {a : α} (h : (match x with | .ok b => decide (b = a) | .error _ => false) = true) :
    x = .ok a := by
  cases x with
  | error e => cases h
  | ok b => rw [of_decide_eq_true h]

theorem twoTriangles_cpdag (it : SetIter 5) : dagToCpdag it twoTriangles = .ok twoTrianglesOut := by
  have ho : orderEdges it twoTriangles = .ok twoTrianglesOrdered := by
    unfold orderEdges
    rw [(C146_dag_accepted it twoTriangles twoTriangles_acyclic).1, twoTriangles_ordering it]
    have : orderEdgesLoop [1, 2, 0, 3, 4, 0] (5 * 5) 1 (fun a b : Fin 5 => if twoTriangles a b ≠ 0 then -1 else 0) = .ok twoTrianglesOrdered :=
      ok_of_check (by decide +kernel)
    simpa using this
  have hnn : Nonneg twoTrianglesOrdered := by unfold Nonneg; decide +kernel
  have hac : Acyclic twoTrianglesOrdered := by
    refine acyclic_of_rank (fun v : Fin 5 => (![2, 0, 1, 3, 4] : Fin 5 → Nat) v) ?_
    unfold Edge
    decide +kernel
  have hl : labelEdges it twoTrianglesOrdered = .ok (fun a b => ![![0, 0, 0, -1, 1], ![-1, 0, -1, 0, 0], ![-1, 0, 0, 0, 0], ![0, 0, 0, 0, 1], ![0, 0, 0, 0, 0]] a b) := by
    unfold labelEdges
    rw [(isDag_iff it hnn).2 hac, if_neg (by simp), if_neg (by decide +kernel)]
    exact ok_of_check (by decide +kernel)
  unfold dagToCpdag
  rw [ho]
  dsimp only
  rw [hl]
  exact ok_of_check (by decide +kernel)

theorem twoTriangles_equiv : Acyclic twoTrianglesH ∧ ZeroOne twoTrianglesH ∧ MarkovEquiv twoTriangles twoTrianglesH := by
  refine ⟨?_, by unfold ZeroOne; decide +kernel, ?_, ?_⟩
  · refine acyclic_of_rank (fun v : Fin 5 => (![2, 3, 4, 1, 0] : Fin 5 → Nat) v) ?_
    unfold Edge
    decide +kernel
  · unfold SameSkeleton Adjacent
    decide +kernel
  · unfold SameVStructures VStructure Adjacent
    decide +kernel

/-- C149: `dag_to_cpdag` may also return a wrong graph without an error.  In a DAG with one weight that is not 1 but -1, all of whose edges are
reversible, it directs two edges into node 4, although there is a Markov equivalent DAG in which they point away from it; `mec` returns a list
without this DAG. -/
theorem C149_wrong_graph (it : SetIter 5) (c : Bool) :
    isDag it twoTriangles = true ∧ dagToCpdag it twoTriangles = .ok twoTrianglesOut ∧ DirEdge twoTrianglesOut 0 4 ∧ DirEdge twoTrianglesOut 3 4 ∧
    (Acyclic twoTrianglesH ∧ MarkovEquiv twoTriangles twoTrianglesH ∧ Edge twoTrianglesH 4 0 ∧ Edge twoTrianglesH 4 3) ∧
    ∃ l, mec it twoTriangles c = .ok l ∧ twoTrianglesH ∉ l := by
  have hd := (C146_dag_accepted it twoTriangles twoTriangles_acyclic).1
  obtain ⟨h1, h2, h3⟩ := twoTriangles_equiv
  refine ⟨hd, twoTriangles_cpdag it, by decide +kernel, by decide +kernel, ⟨h1, h3, by decide +kernel, by decide +kernel⟩, ?_⟩
  have hch : isChainGraph twoTriangles = false := by decide +kernel
  obtain ⟨l, hl, -, hm⟩ := C23_all_dags it twoTrianglesOut (by unfold ZeroOne; decide +kernel) (by unfold NoLoops; decide +kernel)
    (.inl ⟨0, 1, by decide +kernel⟩)
  refine ⟨l, ?_, fun hH => ?_⟩
  · unfold mec
    rw [hd, hch, twoTriangles_cpdag it]
    simpa using hl
  · have := ((hm _).1 hH).2.2.2.2 0 4 (by decide +kernel)
    revert this
    unfold Edge
    decide +kernel
-- a matrix of doubles that meets the hypotheses of `C149_float_correct` and `C149_float_classes`: an edge with weight NaN
example (S : Summer) : ∃ A : FAdj 2, AllDoubles A ∧ Acyclic (graphOf A) ∧ Edge (graphOf A) 0 1 ∧
    ∀ v, (∃ u, A u v ≠ .fin 0) → fcolSum S A v ≠ .fin 0 := by
  have h0 : IsBinary64 0 := ⟨0, 0, by norm_num, by norm_num, by norm_num, by norm_num⟩
  refine ⟨fun i j => if i = 0 ∧ j = 1 then .nan else .fin 0, ?_, ?_, ?_, ?_⟩
  · intro i j q hq
    dsimp only at hq
    split at hq
    · cases hq
    · injection hq with hq
      rw [← hq]
      exact h0
  · refine acyclic_of_rank (fun v : Fin 2 => v.val) ?_
    intro a b h
    rw [Edge, ne_eq, graphOf_eq] at h
    split at h
    · rename_i h'; rw [h'.1, h'.2]; decide
    · exact absurd rfl h
  · rw [Edge, ne_eq, graphOf_eq]
    simp
  · rintro v ⟨u, hu⟩ hs
    have h := (fcolSum_spec S (A := fun i j : Fin 2 => if i = 0 ∧ j = 1 then .nan else .fin 0) (by
      intro i j
      split
      · exact .inl rfl
      · exact .inr (.inr ⟨0, rfl, le_refl _, h0⟩)) v).1 (by rw [hs]; rfl)
    exact hu (h u)

end Verif
