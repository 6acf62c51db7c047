import Verif.Proof.GraphEdit
import Mathlib.Data.Fin.VecNotation

/-!
# Properties C28-C30, C70: random edge addition and removal, supergraph tests, factorizations
-/

namespace Verif
open Spec
variable {p : Nat}

/-! ## C28 -/

/-- C28: if `n` is at most the number of missing edges, `add_edges` returns a DAG that contains `A` and has exactly `n` more
edges, whatever the shuffle; the internal assertion does not fail. -/
theorem C28_add_edges (it : SetIter p) (rng : Rng) (A : Adj p) (hac : Acyclic A) (n : Nat)
    (hn : (n : Int) ≤ p * (p - 1) / 2 - nnz A) :
    ∃ S, addEdges it rng A n = .ok S ∧ ZeroOne S ∧ Acyclic S ∧ (∀ i j, Edge A i j → Edge S i j) ∧
      nnz S = nnz A + n := by
  obtain ⟨S, h1, h2, h3, h4, h5⟩ := (addEdges_spec it rng hac n (by omega)).1 hn
  exact ⟨S, h1, h2, h3, h4, by omega⟩

/-- C28: for larger `n` it raises `ValueError`. -/
theorem C28_raises (it : SetIter p) (rng : Rng) (A : Adj p) (hac : Acyclic A) (n : Nat)
    (hn : (p : Int) * (p - 1) / 2 - nnz A < n) : addEdges it rng A n = .error .valueError :=
  (addEdges_spec it rng hac n (by omega)).2 hn

open Classical in
/-- C28: the bound is the number of missing edges: the ordered pairs of distinct nodes that are not joined are twice as many. -/
theorem C28_bound_meaning (A : Adj p) (hac : Acyclic A) : 2 * ((p : Int) * (p - 1) / 2 - nnz A) =
    (Finset.univ.filter (fun e : Fin p × Fin p => e.1 ≠ e.2 ∧ ¬ Adjacent A e.1 e.2)).card := by
  have h := nonadjacent_add hac
  have := mul_pred_even p
  omega

example : Acyclic (![![0, 1, 0], ![0, 0, 0], ![0, 0, 0]] : Adj 3) ∧
    nnz (![![0, 1, 0], ![0, 0, 0], ![0, 0, 0]] : Adj 3) = 1 :=
  ⟨(isDag_iff (SetIter.incr 3) (by unfold Nonneg; decide)).1 (by decide +kernel), by decide +kernel⟩

-- the candidate 1 → 0 is rejected, 2 → 0 accepted
example : addEdges (SetIter.incr 3) Rng.back (![![0, 1, 0], ![0, 0, 0], ![0, 0, 0]] : Adj 3) 2 =
    .ok ![![0, 1, 0], ![0, 0, 0], ![1, 1, 0]] := eq_of_okEq (by decide +kernel)

/-! ## C29 -/

theorem mem_directedEdges {A : Adj p} {e : Fin p × Fin p} : e ∈ directedEdges A ↔ DirEdge A e.1 e.2 := by
  unfold directedEdges
  rw [mem_wherePairs, decide_eq_true_eq, onlyDirected_ne]
  rfl

/-- C29: `ValueError` iff `A` has fewer than `n` directed edges; no other exception. -/
theorem C29_raises_iff (rng : Rng) (A : Adj p) (n : Nat) :
    (removeEdges rng A n = .error .valueError ↔
      (Finset.univ.filter (fun e : Fin p × Fin p => DirEdge A e.1 e.2)).card < n) ∧
      ∀ e, removeEdges rng A n = .error e → e = .valueError := by
  have hlen : (directedEdges (asBinary A)).length =
      (Finset.univ.filter (fun e : Fin p × Fin p => DirEdge A e.1 e.2)).card := by
    rw [← List.toFinset_card_of_nodup (show (directedEdges (asBinary A)).Nodup from nodup_wherePairs)]
    congr 1
    ext e
    rw [List.mem_toFinset, mem_directedEdges]
    simp only [Finset.mem_filter, Finset.mem_univ, true_and]
    unfold DirEdge
    rw [asBinary_ne]
    have := asBinary_ne (A := A) (i := e.2) (j := e.1)
    tauto
  unfold removeEdges
  simp only [hlen]
  split_ifs with h
  · exact ⟨⟨fun _ => h, fun _ => rfl⟩, fun e he => by injection he with he; exact he.symm⟩
  · exact ⟨⟨fun hc => by simp at hc, fun hc => absurd hc h⟩, fun e he => by simp at he⟩

/-- C29: otherwise the result is the 0/1 graph of `A` without exactly `n` edges, each of which was a directed edge. -/
theorem C29_remove_edges (rng : Rng) (A R : Adj p) (n : Nat) (h : removeEdges rng A n = .ok R) :
    ZeroOne R ∧ (∀ i j, Edge R i j → Edge A i j) ∧ (∀ i j, Edge A i j → ¬ Edge R i j → DirEdge A i j) ∧
      nnz R + n = nnz A ∧ (Acyclic A → Acyclic R) := by
  unfold removeEdges at h
  simp only [] at h
  split_ifs at h with hlt
  push Not at hlt
  have hR : R = (rng.choice (directedEdges (asBinary A)) n).foldl (fun pruned e => setEntry pruned e.1 e.2 0)
      (asBinary A) := by injection h with h; exact h.symm
  have hlen := rng.choice_length _ _ hlt
  have hsub := rng.choice_subperm _ _ hlt
  generalize rng.choice (directedEdges (asBinary A)) n = sel at hR hlen hsub
  have hmem : ∀ e ∈ sel, DirEdge (asBinary A) e.1 e.2 := fun e he => mem_directedEdges.1 (hsub.subset he)
  have hnd : sel.Nodup := by
    obtain ⟨l, hl1, hl2⟩ := hsub
    exact hl1.nodup_iff.1 (hl2.nodup nodup_wherePairs)
  have hentry : ∀ x y, R x y = if (x, y) ∈ sel then 0 else asBinary A x y := by
    intro x y; rw [hR, foldl_setEntry_zero]
  have hEdge : ∀ i j, Edge R i j → Edge A i j := by
    intro i j hij
    unfold Edge at hij
    rw [hentry] at hij
    split_ifs at hij with hc
    · exact absurd rfl hij
    · exact asBinary_ne.1 hij
  refine ⟨?_, hEdge, ?_, ?_, fun hac => hac.mono hEdge⟩
  · intro x y
    rw [hentry]
    split_ifs
    · exact Or.inl rfl
    · exact asBinary_zeroOne A x y
  · intro i j h1 h2
    unfold Edge at h2
    rw [hentry] at h2
    split_ifs at h2 with hc
    · have := hmem _ hc
      refine ⟨h1, ?_⟩
      by_contra hne
      exact asBinary_ne.2 hne this.2
    · exact absurd (asBinary_ne.2 h1) h2
  · have h1 := nnz_foldl_remove sel hnd (asBinary A) (fun e he => (hmem e he).1)
    rw [← hR, hlen] at h1
    rw [h1]
    unfold nnz
    congr 1
    ext e
    simp only [Finset.mem_filter, asBinary_ne]

example : removeEdges Rng.back (![![0, 5, 1], ![0, 0, 1], ![0, 0, 0]] : Adj 3) 2 =
    .ok ![![0, 1, 0], ![0, 0, 0], ![0, 0, 0]] := eq_of_okEq (by decide +kernel)

/-! ## C30 -/

/-- C30: for a 0/1 matrix `A` (the other matrix may have any weights) `is_supergraph(sup, A)` is `True` iff every edge of `A`
is an edge of `sup`. -/
theorem C30_is_supergraph (sup A : Adj p) (hA : ZeroOne A) :
    isSupergraph sup A = true ↔ ∀ i j, Edge A i j → Edge sup i j := by
  unfold isSupergraph Edge
  rw [decide_eq_true_eq]
  refine forall_congr' (fun i => forall_congr' (fun j => ?_))
  rcases hA i j with h | h <;> simp [h]

/-- C30: with a weight other than 0 and 1 in `A` the answer is always `False`, even for `sup = A`. -/
theorem C30_weighted_boundary (sup A : Adj p) (h : ¬ ZeroOne A) : isSupergraph sup A = false := by
  unfold ZeroOne at h
  push Not at h
  obtain ⟨i, j, h0, h1⟩ := h
  unfold isSupergraph
  rw [decide_eq_false_iff_not]
  intro hall
  have := hall i j
  split_ifs at this
  · exact h1 this.symm
  · exact h0 this.symm

theorem any_map_id {α : Type} (l : List α) (f : α → Bool) : (l.map f).any id = true ↔ ∃ x ∈ l, f x = true := by
  rw [List.any_eq_true]
  constructor
  · rintro ⟨b, hb, hb'⟩
    obtain ⟨x, hx, rfl⟩ := List.mem_map.1 hb
    exact ⟨x, hx, hb'⟩
  · rintro ⟨x, hx, h⟩
    exact ⟨f x, List.mem_map_of_mem hx, h⟩

/-- C30: `has_subgraph` on lists of 0/1 graphs. -/
theorem C30_has_subgraph (L1 L2 : List (Adj p)) (h2 : ∀ A ∈ L2, ZeroOne A) :
    hasSubgraph L1 L2 = true ↔ ∀ A ∈ L1, ∃ B ∈ L2, ∀ i j, Edge B i j → Edge A i j := by
  induction L1 with
  | nil => simp [hasSubgraph]
  | cons A L1 ih =>
    have hany : (L2.map (fun A2 => isSupergraph A A2)).any id = true ↔ ∃ B ∈ L2, ∀ i j, Edge B i j → Edge A i j := by
      rw [any_map_id]
      exact exists_congr (fun B => and_congr_right (fun hB => C30_is_supergraph A B (h2 B hB)))
    unfold hasSubgraph
    simp only [List.mem_cons, forall_eq_or_imp, ← hany, ← ih]
    cases (L2.map (fun A2 => isSupergraph A A2)).any id <;> simp

/-- C30: `has_supergraph` on lists of 0/1 graphs. -/
theorem C30_has_supergraph (L1 L2 : List (Adj p)) (h1 : ∀ A ∈ L1, ZeroOne A) :
    hasSupergraph L1 L2 = true ↔ ∀ A ∈ L1, ∃ B ∈ L2, ∀ i j, Edge A i j → Edge B i j := by
  induction L1 with
  | nil => simp [hasSupergraph]
  | cons A L1 ih =>
    have ih := ih (fun B hB => h1 B (List.mem_cons_of_mem _ hB))
    have hany : (L2.map (fun A2 => isSupergraph A2 A)).any id = true ↔ ∃ B ∈ L2, ∀ i j, Edge A i j → Edge B i j := by
      rw [any_map_id]
      exact exists_congr (fun B => and_congr_right (fun hB => C30_is_supergraph B A (h1 A (by simp))))
    unfold hasSupergraph
    simp only [List.mem_cons, forall_eq_or_imp, ← hany, ← ih]
    cases (L2.map (fun A2 => isSupergraph A2 A)).any id <;> simp

example : isSupergraph (![![0, 1], ![0, 0]] : Adj 2) ![![0, 1], ![0, 0]] = true ∧
    isSupergraph (![![0, 1], ![0, 0]] : Adj 2) ![![0, 1], ![1, 0]] = false ∧
    isSupergraph (![![0, 2], ![0, 0]] : Adj 2) ![![0, 2], ![0, 0]] = false := by decide +kernel

/-! ## C70: `to_factorization` -/

/-- C70: `ValueError` iff the graph is not a DAG; otherwise entry `j` lists the parents of `j` in increasing order, each
once. -/
theorem C70_to_factorization (it : SetIter p) (G : Adj p) (hG : Nonneg G) :
    (¬ Acyclic G → toFactorization it G = .error .valueError) ∧
    (Acyclic G → ∃ f, toFactorization it G = .ok f ∧ f.length = p ∧ ∀ j : Fin p, ∃ l, f[j.val]? = some l ∧
      l.Pairwise (· < ·) ∧ ∀ k, k ∈ l ↔ Edge G k j) := by
  constructor
  · intro hac
    have hd : isDag it G = false := by
      rw [← Bool.not_eq_true, isDag_iff it hG]; exact hac
    unfold toFactorization
    rw [hd]
    rfl
  · intro hac
    have hd := (isDag_iff it hG).2 hac
    refine ⟨_, by unfold toFactorization; rw [hd]; rfl, by simp, fun j => ?_⟩
    refine ⟨pySorted (fun a b => decide (a ≤ b)) (it.toList (pa j G)), by simp, ?_, ?_⟩
    · have h1 := pySorted_pairwise (le := fun a b : Fin p => decide (a ≤ b)) (fun a b c h h' => by
        simp only [decide_eq_true_eq] at *; exact le_trans h h') (fun a b => by
        rcases le_total a b with h | h <;> simp [h]) (it.toList (pa j G))
      have h2 : (pySorted (fun a b => decide (a ≤ b)) (it.toList (pa j G))).Nodup :=
        (pySorted_perm _ _).nodup_iff.2 (it.nodup _)
      exact (h1.and h2).imp (fun h => lt_of_le_of_ne (of_decide_eq_true h.1) h.2)
    · intro k
      rw [(pySorted_perm _ _).mem_iff, it.mem, mem_pa]
      exact ⟨fun h => h.1, fun h => ⟨h, hac.no_two h⟩⟩

/-- C70: two DAGs have the same factorization iff they have the same edges (whatever the weights and set orders). -/
theorem C70_injective (it it' : SetIter p) (G H : Adj p) (hG : Nonneg G) (hH : Nonneg H) (hacG : Acyclic G)
    (hacH : Acyclic H) : toFactorization it G = toFactorization it' H ↔ ∀ i j, Edge G i j ↔ Edge H i j := by
  obtain ⟨f, h1, h2, h3⟩ := (C70_to_factorization it G hG).2 hacG
  obtain ⟨g, h4, h5, h6⟩ := (C70_to_factorization it' H hH).2 hacH
  rw [h1, h4]
  constructor
  · intro h
    have h : f = g := by injection h
    subst h
    intro i j
    obtain ⟨l, a1, _, a3⟩ := h3 j
    obtain ⟨l', b1, _, b3⟩ := h6 j
    rw [a1] at b1
    cases b1
    rw [← a3, ← b3]
  · intro h
    congr 1
    apply List.ext_getElem?
    intro k
    by_cases hk : k < p
    · obtain ⟨l, a1, a2, a3⟩ := h3 ⟨k, hk⟩
      obtain ⟨l', b1, b2, b3⟩ := h6 ⟨k, hk⟩
      simp only [] at a1 b1
      rw [a1, b1]
      congr 1
      have hperm : l.Perm l' := (List.perm_ext_iff_of_nodup (a2.imp (fun h => ne_of_lt h)) (b2.imp (fun h => ne_of_lt h))).2
        (fun x => by rw [a3, b3, h])
      exact hperm.eq_of_pairwise (fun a b _ _ h h' => absurd (lt_trans h h') (lt_irrefl _)) a2 b2
    · rw [List.getElem?_eq_none (by omega), List.getElem?_eq_none (by omega)]

example : toFactorization (SetIter.decr 3) (![![0, 1, 1], ![0, 0, 1], ![0, 0, 0]] : Adj 3) = .ok [[], [0], [0, 1]] := by
  decide +kernel

end Verif
