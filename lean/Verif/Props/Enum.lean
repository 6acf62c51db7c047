import Verif.Proof.ChainMec
import Mathlib.Data.Fin.VecNotation

/-!
# Properties C23-C26: enumeration of consistent extensions and equivalence classes

Arrays of graphs are lists; "each once" is `Nodup`.
-/

namespace Verif
open Spec
variable {p : Nat}

/-- Comparison used by the concrete examples. -/
def okListEq (r : Except Err (List (Adj p))) (l : List (Adj p)) : Bool :=
  match r with
  | .ok l' => decide (l' = l)
  | .error _ => false

theorem eq_of_okListEq {r : Except Err (List (Adj p))} {l : List (Adj p)} (h : okListEq r l = true) : r = .ok l := by
  unfold okListEq at h
  cases r with
  | ok l' => rw [of_decide_eq_true h]
  | error e => simp at h

/-! ## C23: `all_dags` -/

/-- C23: for every 0/1 PDAG without self-loops that has an undirected edge or is a DAG, `all_dags` returns every (0/1)
consistent extension exactly once and nothing else. -/
theorem C23_all_dags (it : SetIter p) (P : Adj p) (hP : ZeroOne P) (hl : NoLoops P)
    (h : (∃ i j, UndEdge P i j) ∨ Acyclic P) :
    ∃ l, allDags it P = .ok l ∧ l.Nodup ∧ ∀ H, H ∈ l ↔ ZeroOne H ∧ IsExtension H P := by
  rcases h with h | h
  · exact allDags_spec it hP hl h
  · exact allDags_ext it hP ⟨P, isExtension_self h⟩

/-- C23: in particular the result is empty exactly when there is no extension, if some edge is undirected. -/
theorem C23_empty_iff (it : SetIter p) (P : Adj p) (hP : ZeroOne P) (hl : NoLoops P) (h : ∃ i j, UndEdge P i j) :
    allDags it P = .ok [] ↔ ¬ ∃ D, IsExtension D P := by
  obtain ⟨l, h1, _, h3⟩ := allDags_spec it hP hl h
  rw [h1]
  constructor
  · rintro h ⟨D, hD⟩
    cases h
    have hme := markovEquiv_support D
    have : support D ∈ ([] : List (Adj p)) := (h3 _).2 ⟨support_zeroOne D,
      acyclic_congr (fun i j => edge_support.symm) hD.1, fun i j => (hme.1 i j).symm.trans (hD.2.1 i j),
          fun i c j => (hme.2 i c j).symm.trans (hD.2.2.1 i c j), fun i j h => edge_support.2 (hD.2.2.2 i j h)⟩
    simp at this
  · intro hne
    cases l with
    | nil => rfl
    | cons A As => exact absurd ⟨A, ((h3 A).1 (by simp)).2⟩ hne

/-- C23: the boundary of the statement: a graph without undirected edges is returned as it is, without any check that it
is a DAG. -/
theorem C23_no_undirected_unchecked (it : SetIter p) (P : Adj p) (hP : ZeroOne P) (hl : NoLoops P)
    (h : ¬ ∃ i j, UndEdge P i j) : allDags it P = .ok [P] := allDags_none it hP hl h

/-- C23: hence a directed cycle is "enumerated" although it has no consistent extension. -/
theorem C23_cycle_returned : ∃ P : Adj 3, ZeroOne P ∧ NoLoops P ∧ (¬ ∃ D, IsExtension D P) ∧
    ∀ it, allDags it P = .ok [P] := by
  refine ⟨![![0, 1, 0], ![0, 0, 1], ![1, 0, 0]], by unfold ZeroOne; decide, by unfold NoLoops; decide, ?_, ?_⟩
  · rintro ⟨D, hac, _, _, hd⟩
    have h1 := hd 0 1 (by decide)
    have h2 := hd 1 2 (by decide)
    have h3 := hd 2 0 (by decide)
    exact hac 0 (((Relation.TransGen.single h1).tail h2).tail h3)
  · intro it
    refine allDags_none it (by unfold ZeroOne; decide) (by unfold NoLoops; decide) ?_
    rintro ⟨i, j, h⟩
    revert i j
    decide

/-- C23: on 0/1 matrices the internal assertion fails exactly when there is a self-loop; no other exception occurs. -/
theorem C23_raises_iff (it : SetIter p) (P : Adj p) (hP : ZeroOne P) :
    (allDags it P = .error .assertionError ↔ ¬ NoLoops P) ∧ ∀ e, allDags it P = .error e → e = .assertionError := by
  by_cases hl : NoLoops P
  · have hok : ∃ l, allDags it P = .ok l := by
      by_cases hu : ∃ i j, UndEdge P i j
      · obtain ⟨l, h, _⟩ := allDags_spec it hP hl hu
        exact ⟨l, h⟩
      · exact ⟨_, allDags_none it hP hl hu⟩
    obtain ⟨l, h⟩ := hok
    rw [h]
    simp [hl]
  · have hne : allDags it P = .error .assertionError := by
      have hsum := sumAll_onlyUndirected hP
      unfold NoLoops at hl
      push Not at hl
      obtain ⟨i, hi⟩ := hl
      have hpos : 0 < (Finset.univ.filter (fun i : Fin p => P i i ≠ 0)).card :=
        Finset.card_pos.2 ⟨i, by simpa using hi⟩
      unfold allDags
      simp only []
      rw [if_pos (by rw [hsum]; omega)]
    rw [hne]
    simp [hl]

-- a path 0 - 1 - 2 has three extensions (the collider is excluded)
example : allDags (SetIter.incr 3) ![![0, 1, 0], ![1, 0, 1], ![0, 1, 0]] = .ok
    [![![0, 1, 0], ![0, 0, 1], ![0, 0, 0]], ![![0, 0, 0], ![1, 0, 1], ![0, 0, 0]],
      ![![0, 0, 0], ![1, 0, 0], ![0, 1, 0]]] := eq_of_okListEq (by decide +kernel)

-- weights other than 1 on undirected edges make the assertion fail
example : allDags (SetIter.incr 2) ![![0, 2], ![2, 0]] = .error .assertionError := by
  unfold allDags; rw [if_pos (by decide +kernel)]

/-! ## C24: `mec` -/

/-- C24: exactly the 0/1 adjacency matrices of the DAGs Markov equivalent to `A`, each once.  (`0 < p` is only needed
for the chain shortcut: the empty matrix counts as a chain.) -/
theorem C24_mec (it : SetIter p) (A : Adj p) (hA : Nonneg A) (hac : Acyclic A) (c : Bool) (hp : 0 < p ∨ c = false) :
    ∃ l, mec it A c = .ok l ∧ l.Nodup ∧ ∀ H, H ∈ l ↔ ZeroOne H ∧ Acyclic H ∧ MarkovEquiv A H :=
  mec_spec it hA hac c hp

/-- C24: `ValueError` iff `A` is not a DAG, and no other exception. -/
theorem C24_raises_iff (it : SetIter p) (A : Adj p) (hA : Nonneg A) (c : Bool) :
    (mec it A c = .error .valueError ↔ ¬ Acyclic A) ∧ ∀ e, mec it A c = .error e → e = .valueError := by
  by_cases hac : Acyclic A
  · have hok : ∃ l, mec it A c = .ok l := by
      rcases Nat.eq_zero_or_pos p with hp | hp
      · cases c with
        | false => obtain ⟨l, h, _⟩ := mec_spec it hA hac false (Or.inr rfl); exact ⟨l, h⟩
        | true =>
          subst hp
          have : isChainGraph A = true := isChainGraph_iff.2 (funext (fun i => i.elim0))
          refine ⟨chainGraphMEC 0, ?_⟩
          unfold mec
          rw [(isDag_iff it hA).2 hac, this]
          rfl
      · obtain ⟨l, h, _⟩ := mec_spec it hA hac c (Or.inl hp); exact ⟨l, h⟩
    obtain ⟨l, h⟩ := hok
    rw [h]
    simp [hac]
  · have hd : isDag it A = false := by
      rw [← Bool.not_eq_true, isDag_iff it hA]; exact hac
    have : mec it A c = .error .valueError := by
      unfold mec; rw [hd]; rfl
    rw [this]
    simp [hac]

/-- C24: two DAGs have the same class iff they are Markov equivalent. -/
theorem C24_same_class_iff (it it' : SetIter p) (A B : Adj p) (hA : Nonneg A) (hacA : Acyclic A) (hB : Nonneg B)
    (hacB : Acyclic B) (hp : 0 < p) (c c' : Bool) (l l' : List (Adj p)) (h : mec it A c = .ok l)
    (h' : mec it' B c' = .ok l') : (∀ H, H ∈ l ↔ H ∈ l') ↔ MarkovEquiv A B := by
  obtain ⟨l1, h1, _, h2⟩ := mec_spec it hA hacA c (Or.inl hp)
  obtain ⟨l2, h3, _, h4⟩ := mec_spec it' hB hacB c' (Or.inl hp)
  rw [h] at h1
  rw [h'] at h3
  cases h1
  cases h3
  constructor
  · intro heq
    have := (h2 _).1 ((heq (support B)).2 ((h4 _).2 ⟨support_zeroOne B, acyclic_congr (fun i j => edge_support.symm) hacB,
      markovEquiv_support B⟩))
    exact this.2.2.trans (markovEquiv_support B).symm
  · intro hm H
    rw [h2, h4]
    constructor
    · rintro ⟨a, b, c⟩; exact ⟨a, b, hm.symm.trans c⟩
    · rintro ⟨a, b, c⟩; exact ⟨a, b, hm.trans c⟩

-- the collider is alone in its class
example : mec (SetIter.incr 3) ![![0, 1, 0], ![0, 0, 0], ![0, 1, 0]] true =
    .ok [![![0, 1, 0], ![0, 0, 0], ![0, 1, 0]]] := eq_of_okListEq (by decide +kernel)

-- a complete DAG on three nodes has 3! members
example : (match mec (SetIter.incr 3) ![![0, 1, 1], ![0, 0, 1], ![0, 0, 0]] true with
    | .ok l => decide (l.length = 6) | .error _ => false) = true := by decide +kernel

/-! ## C25: the chain shortcut -/

/-- C25: for `p ≥ 1` `chain_graph_MEC(p)` is the Markov equivalence class of the chain: `p` members, each once. -/
theorem C25_chain_class (hp : 0 < p) : (chainGraphMEC p).Nodup ∧ (chainGraphMEC p).length = p ∧
    ∀ H, H ∈ chainGraphMEC p ↔ ZeroOne H ∧ Acyclic H ∧ MarkovEquiv (chainGraph p) H := chainGraphMEC_spec hp

/-- C25: the shortcut and the general algorithm return the same graphs. -/
theorem C25_shortcut_agrees (it it' : SetIter p) (A : Adj p) (hA : Nonneg A) (hac : Acyclic A) (hp : 0 < p) :
    ∃ l l', mec it A true = .ok l ∧ mec it' A false = .ok l' ∧ l.Perm l' := by
  obtain ⟨l1, h1, n1, h2⟩ := mec_spec it hA hac true (Or.inl hp)
  obtain ⟨l2, h3, n2, h4⟩ := mec_spec it' hA hac false (Or.inl hp)
  exact ⟨l1, l2, h1, h3, (List.perm_ext_iff_of_nodup n1 n2).2 (fun H => by rw [h2, h4])⟩

/-- C25, boundary: for the empty matrix the shortcut returns no graph, the general algorithm one. -/
theorem C25_empty_boundary (it : SetIter 0) (A : Adj 0) : mec it A true = .ok [] ∧ mec it A false = .ok [A] := by
  have hA : Nonneg A := fun i => i.elim0
  have hac : Acyclic A := fun i => i.elim0
  have hch : isChainGraph A = true := isChainGraph_iff.2 (funext (fun i => i.elim0))
  constructor
  · unfold mec
    rw [(isDag_iff it hA).2 hac, hch]
    rfl
  · obtain ⟨l, h1, h2, h3⟩ := mec_spec it hA hac false (Or.inr rfl)
    rw [h1]
    have hall : ∀ B : Adj 0, B = A := fun B => funext (fun i => i.elim0)
    have hmem : A ∈ l := (h3 A).2 ⟨fun i => i.elim0, hac, MarkovEquiv.refl A⟩
    congr 1
    match l, h2, hmem with
    | [B], _, _ => rw [hall B]
    | B :: C :: _, h2, _ => rw [hall B, hall C] at h2; simp at h2

example : isChainGraph (chainGraph 4) = true ∧ (chainGraphMEC 4).length = 4 := by decide

example : chainGraphMEC 3 = [![![0, 1, 0], ![0, 0, 1], ![0, 0, 0]], ![![0, 0, 0], ![1, 0, 1], ![0, 0, 0]],
      ![![0, 0, 0], ![1, 0, 0], ![0, 1, 0]]] := by decide +kernel

/-! ## C26: `imec` -/

/-- C26: exactly the 0/1 adjacency matrices of the DAGs equivalent to `A` with the same parents at every target, each once,
with or without the chain shortcut. -/
theorem C26_imec (it : SetIter p) (A : Adj p) (hA : Nonneg A) (hac : Acyclic A) (I : Finset (Fin p)) (c : Bool)
    (hp : 0 < p ∨ c = false) :
    ∃ l, imec it A (I.image (fun i : Fin p => (i.val : Int))) c = .ok l ∧ l.Nodup ∧
      ∀ H, H ∈ l ↔ ZeroOne H ∧ Acyclic H ∧ IEquiv I A H := imec_spec it hA hac I c hp

/-- A set of integers within range is the image of a set of nodes. -/
theorem image_val_of_range (I : Finset Int) (h : ∀ i ∈ I, 0 ≤ i ∧ i < (p : Int)) :
    ∃ J : Finset (Fin p), J.image (fun i : Fin p => (i.val : Int)) = I := by
  refine ⟨Finset.univ.filter (fun i : Fin p => (i.val : Int) ∈ I), ?_⟩
  ext z
  simp only [Finset.mem_image, Finset.mem_filter, Finset.mem_univ, true_and]
  constructor
  · rintro ⟨i, hi, rfl⟩; exact hi
  · intro hz
    obtain ⟨h1, h2⟩ := h z hz
    exact ⟨⟨z.toNat, by omega⟩, by simpa [Int.toNat_of_nonneg h1] using hz, by simp [Int.toNat_of_nonneg h1]⟩

/-- C26: `ValueError` iff `A` is not a DAG or a target is not a node; no other exception. -/
theorem C26_raises_iff (it : SetIter p) (A : Adj p) (hA : Nonneg A) (I : Finset Int) (c : Bool)
    (hp : 0 < p ∨ c = false) :
    (imec it A I c = .error .valueError ↔ ¬ Acyclic A ∨ ∃ i ∈ I, i < 0 ∨ (p : Int) ≤ i) ∧
      ∀ e, imec it A I c = .error e → e = .valueError := by
  by_cases hac : Acyclic A
  · by_cases hI : ∀ i ∈ I, 0 ≤ i ∧ i < (p : Int)
    · obtain ⟨J, rfl⟩ := image_val_of_range I hI
      obtain ⟨l, h, _⟩ := imec_spec it hA hac J c hp
      rw [h]
      simp only [reduceCtorEq, hac, not_true_eq_false, false_or, false_iff, false_implies, implies_true, and_true]
      rintro ⟨i, hi, h'⟩
      have := hI i hi
      omega
    · have : imec it A I c = .error .valueError := by
        unfold imec; rw [(isDag_iff it hA).2 hac, if_neg (by simp), if_pos hI]
      rw [this]
      push Not at hI
      obtain ⟨i, hi, h'⟩ := hI
      refine ⟨⟨fun _ => Or.inr ⟨i, hi, ?_⟩, fun _ => rfl⟩, fun e he => by injection he with he; exact he.symm⟩
      by_contra hc
      push Not at hc
      have := h' hc.1
      omega
  · have hd : isDag it A = false := by
      rw [← Bool.not_eq_true, isDag_iff it hA]; exact hac
    have : imec it A I c = .error .valueError := by
      unfold imec; rw [hd]; rfl
    rw [this]
    exact ⟨⟨fun _ => Or.inl hac, fun _ => rfl⟩, fun e he => by injection he with he; exact he.symm⟩

/-- C26: without targets it is the Markov equivalence class; targets only remove members. -/
theorem C26_subset_mec (it : SetIter p) (A : Adj p) (hA : Nonneg A) (hac : Acyclic A) (I : Finset (Fin p)) (c c' : Bool)
    (hp : 0 < p) (l l' : List (Adj p)) (h : imec it A (I.image (fun i : Fin p => (i.val : Int))) c = .ok l)
    (h' : mec it A c' = .ok l') : (∀ H ∈ l, H ∈ l') ∧ (I = ∅ → l.Perm l') := by
  obtain ⟨l1, h1, n1, h2⟩ := imec_spec it hA hac I c (Or.inl hp)
  obtain ⟨l2, h3, n2, h4⟩ := mec_spec it hA hac c' (Or.inl hp)
  rw [h] at h1
  rw [h'] at h3
  cases h1
  cases h3
  constructor
  · intro H hH
    obtain ⟨a, b, c⟩ := (h2 H).1 hH
    exact (h4 H).2 ⟨a, b, c.1⟩
  · rintro rfl
    refine (List.perm_ext_iff_of_nodup n1 n2).2 (fun H => ?_)
    rw [h2, h4]
    unfold IEquiv SameParentsAt
    simp

-- chain 0 → 1 → 2 with target 2 keeps two of the three members (0 → 1 may be reversed)
example : imec (SetIter.incr 3) (chainGraph 3) {2} true = .ok
      [![![0, 1, 0], ![0, 0, 1], ![0, 0, 0]], ![![0, 0, 0], ![1, 0, 1], ![0, 0, 0]]] :=
  eq_of_okListEq (by decide +kernel)

-- the general algorithm agrees
example : imec (SetIter.incr 3) (chainGraph 3) {2} false = .ok
      [![![0, 1, 0], ![0, 0, 1], ![0, 0, 0]], ![![0, 0, 0], ![1, 0, 1], ![0, 0, 0]]] :=
  eq_of_okListEq (by decide +kernel)

-- an out-of-range target
example : imec (SetIter.incr 3) (chainGraph 3) {2, 5} false = .error .valueError := by
  unfold imec; rw [if_neg (by decide +kernel), if_pos (by decide)]

end Verif
