import Verif.Proof.Paths
import Mathlib.Data.Fin.VecNotation

/-!
# Properties C07-C09 and C68: paths, separation, chain components
-/

namespace Verif
open Spec
variable {p : Nat}

/-! ## C07 -/

/-- C07: `semi_directed_paths` terminates and returns every non-repeating path from `a` to `b` exactly once and nothing
else. -/
theorem C07_semi_directed_paths (it : SetIter p) (A : Adj p) (hl : NoLoops A) (a b : Fin p) :
    ∃ paths, semiDirectedPaths it a b A = .ok paths ∧ paths.Nodup ∧ ∀ l, l ∈ paths ↔ SimplePath A a b l := by
  obtain ⟨ps, h1, h2, h3⟩ := semiDirectedPaths_spec it A a b
  exact ⟨ps, h1, h2, fun l => (h3 l).trans (sdPath_iff_simplePath hl)⟩

/-- C07: it terminates for every matrix, self-loops included, and returns only walks; the simple paths are among them. -/
theorem C07_with_self_loops (it : SetIter p) (A : Adj p) (a b : Fin p) :
    ∃ paths, semiDirectedPaths it a b A = .ok paths ∧ paths.Nodup ∧ (∀ l ∈ paths, Walk A a b l) ∧
      ∀ l, SimplePath A a b l → l ∈ paths := by
  obtain ⟨ps, h1, h2, h3⟩ := semiDirectedPaths_spec it A a b
  exact ⟨ps, h1, h2, fun l hl => ((h3 l).1 hl).1, fun l hl => (h3 l).2 (SimplePath.sdPath hl)⟩

/-- C07: the result is non-empty exactly when `b` can be reached from `a`. -/
theorem C07_nonempty_iff (it : SetIter p) (A : Adj p) (a b : Fin p) (paths : List (List (Fin p)))
    (h : semiDirectedPaths it a b A = .ok paths) : paths ≠ [] ↔ Relation.ReflTransGen (Edge A) a b := by
  obtain ⟨ps, h1, h2, h3⟩ := semiDirectedPaths_spec it A a b
  rw [h] at h1
  cases h1
  constructor
  · intro hne
    obtain ⟨l, hl⟩ := List.exists_mem_of_ne_nil _ hne
    obtain ⟨hw1, hw2, hw3⟩ := ((h3 l).1 hl).1
    cases l with
    | nil => simp at hw1
    | cons c l =>
      simp only [List.head?_cons, Option.some.injEq] at hw1
      subst hw1
      have hlast := List.relationReflTransGen_of_exists_isChain_cons l hw3 (b := b) (by
        rw [List.getLast?_eq_some_getLast (by simp)] at hw2
        simpa using hw2)
      exact hlast
  · intro hr
    obtain ⟨l, hc, hlast⟩ := List.exists_isChain_cons_of_relationReflTransGen hr
    have hw : Walk A a b (a :: l) := ⟨rfl, by rw [List.getLast?_eq_some_getLast (by simp), hlast], hc⟩
    obtain ⟨l', hs, _⟩ := Walk.exists_simple _ _ hw
    intro hnil
    have := (h3 l').2 (SimplePath.sdPath hs)
    rw [hnil] at this
    simp at this

-- 0 → 1 - 2 → 3, 0 → 3
example : semiDirectedPaths (SetIter.incr 4) 0 3
    (![![0, 1, 0, 1], ![0, 0, 1, 0], ![0, 1, 0, 1], ![0, 0, 0, 0]] : Adj 4) = .ok [[0, 3], [0, 1, 2, 3]] := by
  decide +kernel

-- the boundary: a self-loop is followed once
example : semiDirectedPaths (SetIter.incr 2) 0 1 (![![1, 1], ![0, 0]] : Adj 2) = .ok [[0, 1], [0, 0, 1]] := by
  decide +kernel

/-! ## C08 -/

/-- C08: `ValueError` iff the sets are not pairwise disjoint. -/
theorem C08_raises_iff (it : SetIter p) (S A B : Finset (Fin p)) (G : Adj p) :
    (separates it S A B G = .error .valueError ↔ ¬ (Disjoint A B ∧ Disjoint A S ∧ Disjoint B S)) ∧
      ∀ e, separates it S A B G = .error e → e = .valueError := by
  unfold separates
  simp only [Finset.disjoint_iff_inter_eq_empty, ← Finset.card_eq_zero]
  obtain ⟨b, hb, _⟩ := sepLoop_spec it S G ((it.toList A).flatMap (fun a => (it.toList B).map (fun b => (a, b))))
  rw [hb]
  by_cases h : (A ∩ B).card ≠ 0 ∨ (A ∩ S).card ≠ 0 ∨ (B ∩ S).card ≠ 0
  · rw [if_pos h]
    refine ⟨⟨fun _ => by tauto, fun _ => rfl⟩, fun e he => by injection he with he; exact he.symm⟩
  · rw [if_neg h]
    simp only [reduceCtorEq, false_iff, false_implies, implies_true, and_true]
    tauto

/-- C08: otherwise the answer is `True` iff every semi-directed walk from a node of `A` to a node of `B` meets `S`
(whatever the graph, self-loops included). -/
theorem C08_separates (it : SetIter p) (S A B : Finset (Fin p)) (G : Adj p) (h1 : Disjoint A B) (h2 : Disjoint A S)
    (h3 : Disjoint B S) : ∃ r, separates it S A B G = .ok r ∧
      (r = true ↔ ∀ a ∈ A, ∀ b ∈ B, ∀ w, Walk G a b w → ∃ s ∈ w, s ∈ S) := by
  obtain ⟨b, hb, hb'⟩ := sepLoop_spec it S G ((it.toList A).flatMap (fun a => (it.toList B).map (fun b => (a, b))))
  refine ⟨b, ?_, hb'.trans ?_⟩
  · unfold separates
    rw [Finset.disjoint_iff_inter_eq_empty] at h1 h2 h3
    rw [h1, h2, h3, if_neg (by simp), hb]
  · simp only [List.mem_flatMap, List.mem_map, it.mem]
    constructor
    · intro h a ha b hb w hw
      exact h (a, b) ⟨a, ha, b, hb, rfl⟩ w hw
    · rintro h e ⟨a, ha, b, hb, rfl⟩ w hw
      exact h a ha b hb w hw

example : separates (SetIter.incr 4) {1} {0} {3}
    (![![0, 1, 0, 0], ![0, 0, 1, 0], ![0, 1, 0, 1], ![0, 0, 0, 0]] : Adj 4) = .ok true ∧
  separates (SetIter.incr 4) {1} {0} {3}
    (![![0, 1, 0, 1], ![0, 0, 1, 0], ![0, 1, 0, 1], ![0, 0, 0, 0]] : Adj 4) = .ok false ∧
  separates (SetIter.incr 4) {1} {0, 1} {3}
    (![![0, 1, 0, 1], ![0, 0, 1, 0], ![0, 1, 0, 1], ![0, 0, 0, 0]] : Adj 4) = .error .valueError := by decide +kernel

/-! ## C09 -/

/-- C09: `chain_component` terminates and returns exactly the nodes reachable through undirected edges. -/
theorem C09_chain_component (it : SetIter p) (i : Fin p) (G : Adj p) :
    ∃ V, chainComponent it i G = .ok V ∧ ∀ j, j ∈ V ↔ Relation.ReflTransGen (UndEdge G) i j :=
  chainComponent_spec it i G

/-- C09: chain components partition the nodes. -/
theorem C09_partition (it it' : SetIter p) (i j : Fin p) (G : Adj p) (V W : Finset (Fin p))
    (hV : chainComponent it i G = .ok V) (hW : chainComponent it' j G = .ok W) :
    i ∈ V ∧ (j ∈ V → V = W) ∧ (j ∉ V → Disjoint V W) := by
  obtain ⟨V', h1, h2⟩ := chainComponent_spec it i G
  obtain ⟨W', h3, h4⟩ := chainComponent_spec it' j G
  rw [hV] at h1
  rw [hW] at h3
  cases h1
  cases h3
  have hsymm : ∀ a b, Relation.ReflTransGen (UndEdge G) a b → Relation.ReflTransGen (UndEdge G) b a := by
    intro a b h
    induction h with
    | refl => exact Relation.ReflTransGen.refl
    | tail _ h ih => exact Relation.ReflTransGen.head ⟨h.2, h.1⟩ ih
  refine ⟨(h2 i).2 Relation.ReflTransGen.refl, ?_, ?_⟩
  · intro hj
    have hij := (h2 j).1 hj
    ext k
    rw [h2, h4]
    exact ⟨fun h => (hsymm _ _ hij).trans h, fun h => hij.trans h⟩
  · intro hj
    rw [Finset.disjoint_left]
    intro k hk hk'
    exact hj ((h2 j).2 (((h2 k).1 hk).trans (hsymm _ _ ((h4 k).1 hk'))))

example : (match chainComponent (SetIter.incr 4) 0
      (![![0, 1, 0, 0], ![1, 0, 1, 0], ![0, 1, 0, 1], ![0, 0, 0, 0]] : Adj 4) with
    | .ok V => decide (V = {0, 1, 2}) | .error _ => false) = true := by decide +kernel

/-! ## C68 -/

/-- C68: `is_stable_set` never returns a value: `NameError` when every target is an index of the extended graph,
`IndexError` otherwise. -/
theorem C68_is_stable_set_unusable (S : Finset (Fin p)) (j : Fin p) (I : List Int) (G : Adj p) :
    (∀ b, isStableSet S j I G ≠ .ok b) ∧
    ((∀ i ∈ I, -((p : Int) + I.length) ≤ i ∧ i < (p : Int) + I.length) → isStableSet S j I G = .error .nameError) ∧
    ((∃ i ∈ I, ¬ (-((p : Int) + I.length) ≤ i ∧ i < (p : Int) + I.length)) → isStableSet S j I G = .error .indexError) := by
  unfold isStableSet
  simp only []
  refine ⟨fun b => ?_, fun h => ?_, fun ⟨i, hi, h⟩ => ?_⟩
  · split_ifs <;> simp
  · rw [if_neg]
    rintro ⟨i, hi, h'⟩
    have := h i hi
    omega
  · rw [if_pos ⟨i, hi, by omega⟩]

example : isStableSet {0} (1 : Fin 3) [2] (fun _ _ => 0) = .error .nameError := by decide

/-- The index of an added node is accepted, the next one is not. -/
example : isStableSet {0} (1 : Fin 3) [3] (fun _ _ => 0) = .error .nameError ∧ isStableSet {0} (1 : Fin 3) [4] (fun _ _ => 0) = .error .indexError := by
  decide

end Verif
