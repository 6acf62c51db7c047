import Verif.Model.IntNodes
import Verif.Props.SoundCpdag

/-!
# C159: nodes given as negative integers or outside the graph
-/

namespace Verif

namespace Spec
/-- The integer `i` names the node `k`: itself, or counted from the end. -/
def NamesNode {p : Nat} (i : Int) (k : Fin p) : Prop := i = k ∨ i = (k : Int) - p

/-- The integers that name a node. -/
def InRange (p : Nat) (i : Int) : Prop := -(p : Int) ≤ i ∧ i < p
end Spec

open Spec
variable {p : Nat}

theorem nodeOf_iff {i : Int} {k : Fin p} : nodeOf p i = .ok k ↔ NamesNode i k := by
  have hk := k.isLt
  unfold nodeOf NamesNode
  split
  · rw [Except.ok.injEq, Fin.ext_iff]
    dsimp only
    omega
  · split
    · rw [Except.ok.injEq, Fin.ext_iff]
      dsimp only
      omega
    · refine ⟨fun h => ?_, fun h => ?_⟩
      · cases h
      · omega

theorem nodeOf_error {i : Int} (h : ¬ InRange p i) : nodeOf p i = .error .indexError := by
  unfold InRange at h
  unfold nodeOf
  rw [dif_neg (by omega), dif_neg (by omega)]

theorem nodeOf_ok {i : Int} (h : InRange p i) : ∃ k : Fin p, nodeOf p i = .ok k ∧ NamesNode i k := by
  unfold InRange at h
  by_cases h0 : 0 ≤ i
  · have h1 : NamesNode i (⟨i.toNat, by omega⟩ : Fin p) := .inl (by dsimp only; omega)
    exact ⟨_, nodeOf_iff.2 h1, h1⟩
  · have h1 : NamesNode i (⟨(i + p).toNat, by omega⟩ : Fin p) := .inr (by dsimp only; omega)
    exact ⟨_, nodeOf_iff.2 h1, h1⟩

/-- C159: `neighbors`, `adj`, `pa` and `ch` for any integer: the sets of the node it names, or an `IndexError` if it names none. -/
theorem C159_nodes (i : Int) (A : Adj p) :
    (∀ k : Fin p, NamesNode i k → ∃ N M D C, zneighbors i A = .ok N ∧ zadj i A = .ok M ∧ zpa i A = .ok D ∧ zch i A = .ok C ∧
      (∀ j, j ∈ N ↔ UndEdge A k j) ∧ (∀ j, j ∈ M ↔ Adjacent A k j) ∧ (∀ j, j ∈ D ↔ DirEdge A j k) ∧ ∀ j, j ∈ C ↔ DirEdge A k j) ∧
    ((∃ k : Fin p, NamesNode i k) ↔ InRange p i) ∧
    (¬ InRange p i → zneighbors i A = .error .indexError ∧ zadj i A = .error .indexError ∧ zpa i A = .error .indexError ∧
      zch i A = .error .indexError) := by
  refine ⟨fun k hk => ?_, ⟨?_, fun h => ?_⟩, fun h => ?_⟩
  · have h := nodeOf_iff.2 hk
    refine ⟨neighbors k A, adj k A, pa k A, ch k A, ?_, ?_, ?_, ?_, fun j => ?_, fun j => ?_, fun j => ?_, fun j => ?_⟩
    · unfold zneighbors; rw [h]
    · unfold zadj; rw [h]
    · unfold zpa; rw [h]
    · unfold zch; rw [h]
    · exact mem_neighbors
    · exact mem_adj
    · exact mem_pa
    · exact mem_ch
  · rintro ⟨k, hk⟩
    have := k.isLt
    unfold NamesNode at hk
    unfold InRange
    omega
  · obtain ⟨k, -, hk⟩ := nodeOf_ok h
    exact ⟨k, hk⟩
  · have h := nodeOf_error h
    unfold zneighbors zadj zpa zch
    rw [h]
    exact ⟨rfl, rfl, rfl, rfl⟩

/-- C159: `na(y, x, A)` for any integers. -/
theorem C159_na (y x : Int) (A : Adj p) :
    (∀ a b : Fin p, NamesNode y a → NamesNode x b → ∃ N, zna y x A = .ok N ∧ ∀ j, j ∈ N ↔ UndEdge A a j ∧ Adjacent A b j) ∧
    (¬ InRange p y ∨ ¬ InRange p x → zna y x A = .error .indexError) := by
  constructor
  · intro a b ha hb
    refine ⟨neighbors a A ∩ adj b A, ?_, fun j => ?_⟩
    · unfold zna zneighbors zadj
      rw [nodeOf_iff.2 ha, nodeOf_iff.2 hb]
    · rw [Finset.mem_inter]
      exact and_congr mem_neighbors mem_adj
  · intro h
    unfold zna zneighbors zadj
    by_cases hy : InRange p y
    · obtain ⟨k, hk, -⟩ := nodeOf_ok hy
      rw [hk, nodeOf_error (h.resolve_left (fun h => h hy))]
    · rw [nodeOf_error hy]

theorem nodesOf_map {S : List Int} {g : Int → Fin p} (h : ∀ i ∈ S, nodeOf p i = .ok (g i)) : nodesOf p S = .ok (S.map g) := by
  induction S with
  | nil => rfl
  | cons i S ih =>
    unfold nodesOf
    rw [h i (by simp), ih fun j hj => h j (by simp [hj])]
    rfl

theorem nodesOf_error {S : List Int} (h : ∃ i ∈ S, ¬ InRange p i) : nodesOf p S = .error .indexError := by
  induction S with
  | nil => simp at h
  | cons i S ih =>
    unfold nodesOf
    by_cases hi : InRange p i
    · obtain ⟨k, hk, -⟩ := nodeOf_ok hi
      rw [hk, ih]
      obtain ⟨j, hj, hn⟩ := h
      rcases List.mem_cons.1 hj with rfl | hj
      · exact absurd hi hn
      · exact ⟨j, hj, hn⟩
    · rw [nodeOf_error hi]

theorem exists_nodes {S : List Int} (h : ∀ i ∈ S, InRange p i) : S = [] ∨ ∃ g : Int → Fin p, ∀ i ∈ S, nodeOf p i = .ok (g i) ∧ NamesNode i (g i) := by
  by_cases hS : S = []
  · exact .inl hS
  · right
    obtain ⟨i0, h0⟩ := List.exists_mem_of_ne_nil S hS
    obtain ⟨k0, -, -⟩ := nodeOf_ok (h i0 h0)
    have : ∀ i, ∃ k : Fin p, i ∈ S → nodeOf p i = .ok k ∧ NamesNode i k := by
      intro i
      by_cases hi : i ∈ S
      · obtain ⟨k, hk⟩ := nodeOf_ok (h i hi)
        exact ⟨k, fun _ => hk⟩
      · exact ⟨k0, fun h => absurd h hi⟩
    choose g hg using this
    exact ⟨g, hg⟩

/-- C159: `is_clique` for a set of integers and a graph with non-negative weights: true exactly if any two different integers of the set name adjacent
nodes.  So a set that names a node twice is not a clique. -/
theorem C159_is_clique (S : List Int) (hS : S.Nodup) (A : Adj p) (hA : Nonneg A) (hl : NoLoops A) :
    ((∀ i ∈ S, InRange p i) → ∃ b, zisClique S A = .ok b ∧
      (b = true ↔ ∀ i ∈ S, ∀ j ∈ S, i ≠ j → ∃ x y : Fin p, NamesNode i x ∧ NamesNode j y ∧ Adjacent A x y)) ∧
    ((∃ i ∈ S, ¬ InRange p i) → zisClique S A = .error .indexError) := by
  constructor
  · intro h
    rcases exists_nodes h with rfl | ⟨g, hg⟩
    · exact ⟨true, by simp [zisClique, nodesOf], by simp⟩
    · refine ⟨_, by unfold zisClique; rw [nodesOf_map fun i hi => (hg i hi).1], ?_⟩
      have hadj : ∀ a b : Fin p, skeleton A a b ≠ 0 ↔ Adjacent A a b := by
        intro a b
        have h1 := hA a b
        have h2 := hA b a
        unfold skeleton Adjacent
        split <;> simp <;> omega
      have hsum : ((S.map g).map fun a => ((S.map g).filter fun b => decide (skeleton A a b ≠ 0)).length).sum =
          ∑ i ∈ S.toFinset, (S.toFinset.filter fun j => Adjacent A (g i) (g j)).card := by
        rw [List.sum_toFinset _ hS, List.map_map]
        congr 1
        refine List.map_congr_left fun i _ => ?_
        rw [Function.comp_apply, List.filter_map, List.length_map, ← List.toFinset_card_of_nodup (hS.filter _), List.toFinset_filter]
        congr 1
        refine Finset.filter_congr fun j _ => ?_
        simp [hadj]
      rw [decide_eq_true_eq, hsum]
      have hcard : S.toFinset.card = S.length := List.toFinset_card_of_nodup hS
      have hle : ∀ i ∈ S.toFinset, (S.toFinset.filter fun j => Adjacent A (g i) (g j)) ⊆ S.toFinset.erase i := by
        intro i _ j hj
        obtain ⟨h1, h2⟩ := Finset.mem_filter.1 hj
        refine Finset.mem_erase.2 ⟨?_, h1⟩
        rintro rfl
        rcases h2 with h2 | h2 <;> exact h2 (hl _)
      have hconst : S.length * (S.length - 1) = ∑ i ∈ S.toFinset, (S.toFinset.erase i).card := by
        rw [Finset.sum_congr rfl (fun i hi => Finset.card_erase_of_mem hi), Finset.sum_const, hcard, smul_eq_mul]
      rw [hconst, Finset.sum_eq_sum_iff_of_le fun i hi => Finset.card_le_card (hle i hi)]
      constructor
      · intro hall i hi j hj hij
        have hi' := List.mem_toFinset.2 hi
        have heq := Finset.eq_of_subset_of_card_le (hle i hi') (le_of_eq (hall i hi').symm)
        have hmem : j ∈ S.toFinset.filter fun j => Adjacent A (g i) (g j) := by
          rw [heq]
          exact Finset.mem_erase.2 ⟨fun h => hij h.symm, List.mem_toFinset.2 hj⟩
        exact ⟨g i, g j, (hg i hi).2, (hg j hj).2, (Finset.mem_filter.1 hmem).2⟩
      · intro hall i hi
        congr 1
        refine Finset.Subset.antisymm (hle i hi) fun j hj => ?_
        obtain ⟨h1, h2⟩ := Finset.mem_erase.1 hj
        obtain ⟨x, y, hx, hy, hxy⟩ := hall i (List.mem_toFinset.1 hi) j (List.mem_toFinset.1 h2) (fun h => h1 h.symm)
        have e1 : x = g i := by
          have := nodeOf_iff.2 hx
          rw [(hg i (List.mem_toFinset.1 hi)).1] at this
          injection this with this
          exact this.symm
        have e2 : y = g j := by
          have := nodeOf_iff.2 hy
          rw [(hg j (List.mem_toFinset.1 h2)).1] at this
          injection this with this
          exact this.symm
        rw [e1, e2] at hxy
        exact Finset.mem_filter.2 ⟨h2, hxy⟩
  · intro h
    unfold zisClique
    rw [nodesOf_error h]

/-- C159: `induced_subgraph` for a set of integers keeps the edges between the nodes they name. -/
theorem C159_induced_subgraph (S : List Int) (G : Adj p) :
    ((∀ i ∈ S, InRange p i) → ∃ H, zinducedSubgraph S G = .ok H ∧
      ∀ a b, ((∃ i ∈ S, NamesNode i a) ∧ (∃ i ∈ S, NamesNode i b) → H a b = G a b) ∧ (¬ ((∃ i ∈ S, NamesNode i a) ∧ ∃ i ∈ S, NamesNode i b) → H a b = 0)) ∧
    ((∃ i ∈ S, ¬ InRange p i) → zinducedSubgraph S G = .error .indexError) := by
  constructor
  · intro h
    rcases exists_nodes h with rfl | ⟨g, hg⟩
    · exact ⟨_, by unfold zinducedSubgraph; rw [nodesOf], fun a b => by simp [inducedSubgraph]⟩
    · refine ⟨_, by unfold zinducedSubgraph; rw [nodesOf_map fun i hi => (hg i hi).1], fun a b => ?_⟩
      have hm : ∀ a : Fin p, a ∈ (S.map g).toFinset ↔ ∃ i ∈ S, NamesNode i a := by
        intro a
        rw [List.mem_toFinset, List.mem_map]
        refine exists_congr fun i => and_congr_right fun hi => ?_
        rw [← nodeOf_iff, (hg i hi).1, Except.ok.injEq]
      have hc : (decide (a ∈ (S.map g).toFinset) && decide (b ∈ (S.map g).toFinset)) = true ↔ (∃ i ∈ S, NamesNode i a) ∧ ∃ i ∈ S, NamesNode i b := by
        rw [Bool.and_eq_true, decide_eq_true_eq, decide_eq_true_eq, hm, hm]
      exact ⟨fun h => if_pos (hc.2 h), fun h => if_neg fun h' => h (hc.1 h')⟩
  · intro h
    unfold zinducedSubgraph
    rw [nodesOf_error h]

/-! ### Targets -/

theorem ztargetEdges_spec (it : SetIter p) (G : Adj p) {I : List Int} {g : Int → Fin p} (h : ∀ i ∈ I, nodeOf p i = .ok (g i)) :
    ∃ es, ztargetEdges it G I = .ok es ∧
      List.Forall₂ (fun z e => nodeOf p z.1 = .ok e.1 ∧ nodeOf p z.2 = .ok e.2) es (targetEdges it G (I.map g)) := by
  induction I with
  | nil => exact ⟨[], rfl, .nil⟩
  | cons i I ih =>
    obtain ⟨es, h1, h2⟩ := ih fun j hj => h j (by simp [hj])
    have hi := h i (by simp)
    have hj : ∀ j : Fin p, nodeOf p (j.val : Int) = .ok j := fun j => nodeOf_iff.2 (.inl rfl)
    refine ⟨_, by unfold ztargetEdges zch zpa; rw [hi, h1], ?_⟩
    unfold targetEdges at h2 ⊢
    rw [List.map_cons, List.flatMap_cons]
    refine List.rel_append (List.rel_append ?_ ?_) h2
    · rw [List.forall₂_map_left_iff, List.forall₂_map_right_iff, List.forall₂_same]
      exact fun j _ => ⟨hi, hj j⟩
    · rw [List.forall₂_map_left_iff, List.forall₂_map_right_iff, List.forall₂_same]
      exact fun j _ => ⟨hj j, hi⟩

theorem ztargetEdges_error (it : SetIter p) (G : Adj p) {I : List Int} (h : ∃ i ∈ I, ¬ InRange p i) : ztargetEdges it G I = .error .indexError := by
  induction I with
  | nil => simp at h
  | cons i I ih =>
    unfold ztargetEdges zch zpa
    by_cases hi : InRange p i
    · obtain ⟨k, hk, -⟩ := nodeOf_ok hi
      rw [hk, ih]
      obtain ⟨j, hj, hn⟩ := h
      rcases List.mem_cons.1 hj with rfl | hj
      · exact absurd hi hn
      · exact ⟨j, hj, hn⟩
    · rw [nodeOf_error hi]

theorem zicpdagLoop_eq {zs : List (Int × Int)} {es : List (Fin p × Fin p)}
    (h : List.Forall₂ (fun z e => nodeOf p z.1 = .ok e.1 ∧ nodeOf p z.2 = .ok e.2) zs es) (P : Adj p) : zicpdagLoop zs P = icpdagLoop es P := by
  induction h generalizing P with
  | nil => rfl
  | cons hz _ ih =>
    unfold zicpdagLoop icpdagLoop
    rw [hz.2]
    dsimp only
    rw [hz.1]
    dsimp only
    split
    · rename_i h'
      rw [h']
    · rename_i h'
      rw [h', ih]

/-- C159: `dag_to_icpdag` for targets given as any integers.  An error of `dag_to_cpdag` comes first; then a target that names no node raises an
`IndexError`; otherwise the result is that for the nodes that the targets name. -/
theorem C159_dag_to_icpdag (it : SetIter p) (G : Adj p) (I : List Int) :
    (∀ err, dagToCpdag it G = .error err → zdagToIcpdag it G I = .error err) ∧
    (∀ C, dagToCpdag it G = .ok C → (∃ i ∈ I, ¬ InRange p i) → zdagToIcpdag it G I = .error .indexError) ∧
    ((∀ i ∈ I, InRange p i) → ∃ J : List (Fin p), (∀ k, k ∈ J ↔ ∃ i ∈ I, NamesNode i k) ∧ zdagToIcpdag it G I = dagToIcpdag it G J) := by
  refine ⟨fun err h => ?_, fun C hC h => ?_, fun h => ?_⟩
  · unfold zdagToIcpdag
    rw [h]
  · unfold zdagToIcpdag
    rw [hC]
    dsimp only
    rw [ztargetEdges_error it G h]
  · rcases exists_nodes h with rfl | ⟨g, hg⟩
    · refine ⟨[], by simp, ?_⟩
      unfold zdagToIcpdag dagToIcpdag
      rfl
    · refine ⟨I.map g, fun k => ?_, ?_⟩
      · rw [List.mem_map]
        refine exists_congr fun i => and_congr_right fun hi => ?_
        rw [← nodeOf_iff, (hg i hi).1, Except.ok.injEq]
      · obtain ⟨es, h1, h2⟩ := ztargetEdges_spec it G (fun i hi => (hg i hi).1)
        unfold zdagToIcpdag dagToIcpdag
        rw [h1]
        cases dagToCpdag it G with
        | error err => rfl
        | ok C =>
          dsimp only
          rw [zicpdagLoop_eq (List.rel_reverse h2)]
          cases icpdagLoop (targetEdges it G (I.map g)).reverse C with
          | error err => rfl
          | ok P =>
            dsimp only
            cases isConsistentExtension it G P with
            | error err => rfl
            | ok b => cases b <;> rfl

/-- C159: so for a DAG with non-negative weights it returns the interventional essential graph for the nodes that the targets name. -/
theorem C159_essential (it : SetIter p) (G : Adj p) (hG : Nonneg G) (hac : Acyclic G) (I : List Int) (h : ∀ i ∈ I, InRange p i) (K : Finset (Fin p))
    (hK : ∀ k, k ∈ K ↔ ∃ i ∈ I, NamesNode i k) :
    ∃ P, zdagToIcpdag it G I = .ok P ∧ ZeroOne P ∧ ∀ a b, Edge P a b ↔ ∃ H, Acyclic H ∧ IEquiv K G H ∧ Edge H a b := by
  obtain ⟨J, hJ, hz⟩ := (C159_dag_to_icpdag it G I).2.2 h
  obtain ⟨P, h1, h2, -⟩ := dagToIcpdag_spec it hG hac J
  have hKJ : J.toFinset = K := by
    ext k
    rw [List.mem_toFinset, hJ, hK]
  refine ⟨P, hz.trans h1, h2, fun a b => ?_⟩
  rw [dagToIcpdag_edge hG hac h1, hKJ]

/-- C159: `pdag_to_icpdag` for targets given as any integers: the first target that names no node, or that names one with an undirected edge, decides
the error; if there is none, the result is that of `dag_to_icpdag` for the consistent extension that `pdag_to_dag` finds. -/
theorem C159_pdag_to_icpdag (it : SetIter p) (P : Adj p) (I : List Int) :
    (∀ I₁ i I₂, I = I₁ ++ i :: I₂ → (∀ j ∈ I₁, ∃ k : Fin p, NamesNode j k ∧ ∀ a, ¬ UndEdge P k a) →
      (¬ InRange p i → zpdagToIcpdag it P I = .error .indexError) ∧
      ((∃ k : Fin p, NamesNode i k ∧ ∃ a, UndEdge P k a) → zpdagToIcpdag it P I = .error .valueError)) ∧
    ((∀ j ∈ I, ∃ k : Fin p, NamesNode j k ∧ ∀ a, ¬ UndEdge P k a) →
      (pdagToDag P = .error .valueError → zpdagToIcpdag it P I = .error .valueError) ∧
      ∀ G, pdagToDag P = .ok G → zpdagToIcpdag it P I = zdagToIcpdag it G I) := by
  have hpre : ∀ (I₁ I₂ : List Int), (∀ j ∈ I₁, ∃ k : Fin p, NamesNode j k ∧ ∀ a, ¬ UndEdge P k a) → zcheckTargets P (I₁ ++ I₂) = zcheckTargets P I₂ := by
    intro I₁ I₂ h
    induction I₁ with
    | nil => rfl
    | cons j I₁ ih =>
      obtain ⟨k, hk, hu⟩ := h j (by simp)
      rw [List.cons_append, zcheckTargets]
      unfold zneighbors
      rw [nodeOf_iff.2 hk]
      dsimp only
      rw [if_neg, ih fun j hj => h j (by simp [hj])]
      intro hc
      obtain ⟨a, ha⟩ := Finset.card_pos.1 hc
      exact hu a (mem_neighbors.1 ha)
  constructor
  · rintro I₁ i I₂ rfl h
    have h1 := hpre I₁ (i :: I₂) h
    constructor
    · intro hi
      unfold zpdagToIcpdag
      rw [h1, zcheckTargets]
      unfold zneighbors
      rw [nodeOf_error hi]
    · rintro ⟨k, hk, a, ha⟩
      unfold zpdagToIcpdag
      rw [h1, zcheckTargets]
      unfold zneighbors
      rw [nodeOf_iff.2 hk]
      dsimp only
      rw [if_pos (Finset.card_pos.2 ⟨a, mem_neighbors.2 ha⟩)]
  · intro h
    have h1 := hpre I [] h
    rw [List.append_nil] at h1
    constructor
    · intro hG
      unfold zpdagToIcpdag
      rw [h1, zcheckTargets, hG]
    · intro G hG
      unfold zpdagToIcpdag
      rw [h1, zcheckTargets, hG]

/-! ### Chain components -/

/-- What holds during the search from the integer `i` that names the node `k`. -/
structure ZInv (A : Adj p) (i : Int) (k : Fin p) (v t : Finset Int) : Prop where
  mem : i ∈ v ∪ t
  reach : ∀ x ∈ v ∪ t, x = i ∨ ∃ y : Fin p, x = y ∧ Relation.TransGen (UndEdge A) k y
  disj : Disjoint v t
  closed : ∀ x ∈ v, ∀ z y : Fin p, NamesNode x z → UndEdge A z y → (y : Int) ∈ v ∪ t

theorem namesNode_unique {i : Int} {a b : Fin p} (ha : NamesNode i a) (hb : NamesNode i b) : a = b := by
  have h1 := nodeOf_iff.2 ha
  rw [nodeOf_iff.2 hb] at h1
  injection h1 with h1
  exact h1.symm

theorem zcomponentPass_spec {A : Adj p} {i : Int} {k : Fin p} (hk : NamesNode i k) (js : List Int) : ∀ v t : Finset Int, ZInv A i k v t →
    (∀ x ∈ js, x = i ∨ ∃ y : Fin p, x = y ∧ Relation.TransGen (UndEdge A) k y) →
    ∃ s, zcomponentPass A js v t = .ok s ∧ ZInv A i k s.1 s.2 ∧ (∀ j ∈ js, j ∈ s.1) ∧ v ⊆ s.1 := by
  induction js with
  | nil => exact fun v t h _ => ⟨(v, t), rfl, h, by simp, fun _ h => h⟩
  | cons j js ih =>
    intro v t h hj
    have hr := hj j (by simp)
    obtain ⟨z, hz, hstep⟩ : ∃ z : Fin p, NamesNode j z ∧ ∀ y, UndEdge A z y → Relation.TransGen (UndEdge A) k y := by
      rcases hr with rfl | ⟨y, rfl, hy⟩
      · exact ⟨k, hk, fun y hy => .single hy⟩
      · exact ⟨y, .inl rfl, fun x hx => hy.tail hx⟩
    unfold zcomponentPass zneighbors
    rw [nodeOf_iff.2 hz]
    dsimp only
    have hN : ∀ x : Int, x ∈ (neighbors z A).image (fun k : Fin p => (k.val : Int)) ↔ ∃ y : Fin p, UndEdge A z y ∧ (y : Int) = x := by
      intro x
      rw [Finset.mem_image]
      exact exists_congr fun y => and_congr_left fun _ => mem_neighbors
    have hinv : ZInv A i k (insert j v) ((t ∪ (neighbors z A).image (fun k : Fin p => (k.val : Int))) \ insert j v) := by
      have hun : ∀ x, x ∈ insert j v ∪ ((t ∪ (neighbors z A).image (fun k : Fin p => (k.val : Int))) \ insert j v) ↔
          x = j ∨ x ∈ v ∪ t ∨ ∃ y : Fin p, UndEdge A z y ∧ (y : Int) = x := by
        intro x
        rw [Finset.mem_union, Finset.mem_sdiff, Finset.mem_union, Finset.mem_insert, Finset.mem_union, hN]
        tauto
      refine ⟨(hun i).2 (.inr (.inl h.mem)), fun x hx => ?_, Finset.disjoint_sdiff, fun x hx w y hw hy => ?_⟩
      · rcases (hun x).1 hx with rfl | hx | ⟨y, hy, rfl⟩
        · exact hr
        · exact h.reach x hx
        · exact .inr ⟨y, rfl, hstep y hy⟩
      · rw [hun]
        rcases Finset.mem_insert.1 hx with rfl | hx
        · rw [namesNode_unique hw hz] at hy
          exact .inr (.inr ⟨y, hy, rfl⟩)
        · exact .inr (.inl (h.closed x hx w y hw hy))
    obtain ⟨s, h1, h2, h3, h4⟩ := ih _ _ hinv fun x hx => hj x (by simp [hx])
    refine ⟨s, h1, h2, fun x hx => ?_, (Finset.subset_insert _ _).trans h4⟩
    rcases List.mem_cons.1 hx with rfl | hx
    · exact h4 (Finset.mem_insert_self _ _)
    · exact h3 x hx

theorem zcomponentLoop_spec (it : IntIter) {A : Adj p} {i : Int} {k : Fin p} (hk : NamesNode i k) (n : Nat) : ∀ v t : Finset Int, ZInv A i k v t →
    p + 1 < n + v.card → ∃ V, zcomponentLoop it A n v t = .ok V ∧ ZInv A i k V ∅ := by
  induction n with
  | zero =>
    intro v t h hn
    have hsub : v ⊆ insert i (Finset.univ.image fun k : Fin p => (k.val : Int)) := by
      intro x hx
      rcases h.reach x (Finset.mem_union_left _ hx) with rfl | ⟨y, rfl, -⟩
      · exact Finset.mem_insert_self _ _
      · exact Finset.mem_insert_of_mem (Finset.mem_image_of_mem _ (Finset.mem_univ y))
    have h1 := Finset.card_le_card hsub
    have h2 := Finset.card_insert_le i (Finset.univ.image fun k : Fin p => (k.val : Int))
    have h3 : (Finset.univ.image fun k : Fin p => (k.val : Int)).card ≤ p := by
      refine Finset.card_image_le.trans ?_
      simp
    omega
  | succ n ih =>
    intro v t h hn
    unfold zcomponentLoop
    by_cases ht : t.card > 0
    · rw [if_pos ht]
      obtain ⟨s, h0, h1, h2, h3⟩ := zcomponentPass_spec hk (it.toList t) v t h fun x hx => h.reach x (Finset.mem_union_right _ ((it.mem t x).1 hx))
      rw [h0]
      refine ih _ _ h1 ?_
      obtain ⟨j, hj⟩ := Finset.card_pos.1 ht
      have hjv : j ∉ v := fun hc => Finset.disjoint_left.1 h.disj hc hj
      have : v.card < s.1.card := by
        apply Finset.card_lt_card
        rw [Finset.ssubset_iff_of_subset h3]
        exact ⟨j, h2 j ((it.mem t j).2 hj), hjv⟩
      omega
    · rw [if_neg ht]
      have : t = ∅ := by
        rw [← Finset.card_eq_zero]
        omega
      subst this
      exact ⟨v, rfl, h⟩

/-- C159: `chain_component` for any integer: the integer itself and the nodes that are reached from the node it names along at least one undirected
edge.  So for a negative integer the result contains this integer, and the node that it names only if the node has an undirected edge. -/
theorem C159_chain_component (it : IntIter) (i : Int) (G : Adj p) :
    (∀ k : Fin p, NamesNode i k → ∃ V, zchainComponent it i G = .ok V ∧
      (∀ x, x ∈ V ↔ x = i ∨ ∃ y : Fin p, x = y ∧ Relation.TransGen (UndEdge G) k y) ∧
      (i < 0 → ((k : Int) ∈ V ↔ ∃ y, UndEdge G k y))) ∧
    (¬ InRange p i → zchainComponent it i G = .error .indexError) := by
  constructor
  · intro k hk
    have hrel : UndEdge (onlyUndirected G) = UndEdge G := by
      funext x y
      unfold UndEdge
      rw [onlyUndirected_ne, onlyUndirected_ne]
      exact propext ⟨fun h => h.1, fun h => ⟨h, h.2, h.1⟩⟩
    obtain ⟨V, h1, h2⟩ := zcomponentLoop_spec it (A := onlyUndirected G) hk (p + 2) ∅ {i}
      ⟨by simp, fun x hx => .inl (by simpa using hx), by simp, by simp⟩ (by simp)
    have hV : ∀ x, x ∈ V ↔ x = i ∨ ∃ y : Fin p, x = y ∧ Relation.TransGen (UndEdge G) k y := by
      intro x
      constructor
      · intro hx
        have := h2.reach x (Finset.mem_union_left _ hx)
        rwa [hrel] at this
      · rintro (rfl | ⟨y, rfl, hy⟩)
        · simpa using h2.mem
        · have hc := h2.closed
          rw [hrel] at hc
          induction hy with
          | single h => simpa using hc i (by simpa using h2.mem) k _ hk h
          | tail _ h ih => simpa using hc _ ih _ _ (.inl rfl) h
    refine ⟨V, h1, hV, fun hi => ?_⟩
    rw [hV]
    constructor
    · rintro (h | ⟨y, h, hy⟩)
      · omega
      · obtain ⟨z, hz, -⟩ := Relation.TransGen.head'_iff.1 hy
        exact ⟨z, hz⟩
    · rintro ⟨y, hy⟩
      exact .inr ⟨k, rfl, (Relation.TransGen.single hy).tail ⟨hy.2, hy.1⟩⟩
  · intro hi
    have hm : i ∈ it.toList {i} := (it.mem _ _).2 (by simp)
    unfold zchainComponent zcomponentLoop
    rw [if_pos (by simp)]
    rcases hl : it.toList {i} with _ | ⟨j, js⟩
    · rw [hl] at hm
      cases hm
    · have hj : j = i := by
        have := (it.mem {i} j).1 (by rw [hl]; simp)
        simpa using this
      subst hj
      unfold zcomponentPass zneighbors
      rw [nodeOf_error hi]

/-- An example for `C159_nodes`, `C159_na`, `C159_is_clique` and `C159_induced_subgraph`: the edge `0 → 1` and the last node, -1. -/
example : NamesNode (-1) (1 : Fin 2) ∧ NamesNode 1 (1 : Fin 2) ∧ InRange 2 (-1) ∧ ¬ InRange 2 2 ∧ ¬ InRange 2 (-3) ∧
    Nonneg (![![0, 1], ![0, 0]] : Adj 2) ∧ NoLoops (![![0, 1], ![0, 0]] : Adj 2) ∧
    zisClique [0, -1] (![![0, 1], ![0, 0]] : Adj 2) = .ok true ∧ zisClique [1, -1] (![![0, 1], ![0, 0]] : Adj 2) = .ok false := by
  refine ⟨.inr rfl, .inl rfl, ?_, ?_, ?_, ?_, ?_, rfl, rfl⟩
  · unfold InRange; decide
  · unfold InRange; decide
  · unfold InRange; decide
  · unfold Nonneg; decide
  · unfold NoLoops; decide

/-- An example for `C159_dag_to_icpdag` and `C159_essential`: the last node of `0 → 1` as target. -/
example (it : SetIter 2) : ∃ P, zdagToIcpdag it (![![0, 1], ![0, 0]] : Adj 2) [-1] = .ok P ∧ DirEdge P 0 1 := by
  have hac : Acyclic (![![0, 1], ![0, 0]] : Adj 2) := acyclic_of_rank (fun v : Fin 2 => v.val) (by unfold Edge; decide)
  obtain ⟨P, hP, -, hiff⟩ := C159_essential it (![![0, 1], ![0, 0]] : Adj 2) (by unfold Nonneg; decide) hac [-1] (by simp [InRange]) {1} (by
    intro k
    fin_cases k <;> simp [NamesNode])
  refine ⟨P, hP, (hiff 0 1).2 ⟨_, hac, ⟨MarkovEquiv.refl _, fun _ _ _ => Iff.rfl⟩, by unfold Edge; decide⟩, ?_⟩
  by_contra hc
  obtain ⟨H, h1, h2, h3⟩ := (hiff 1 0).1 hc
  exact h3 (h1.no_two ((h2.2 1 (by simp) 0).1 (by unfold Edge; decide)))

/-- An example for `C159_pdag_to_icpdag`: the edge `0 - 1` with targets -1 and 5. -/
example (it : SetIter 2) : zpdagToIcpdag it (![![0, 1], ![1, 0]] : Adj 2) [-1, 5] = .error .valueError ∧
    zpdagToIcpdag it (![![0, 1], ![1, 0]] : Adj 2) [5, -1] = .error .indexError := by
  refine ⟨((C159_pdag_to_icpdag it _ _).1 [] (-1) [5] rfl (by simp)).2 ⟨1, .inr rfl, 0, by unfold UndEdge; decide⟩,
    ((C159_pdag_to_icpdag it _ _).1 [] 5 [-1] rfl (by simp)).1 (by unfold InRange; decide)⟩

/-- An example for `C159_chain_component`: in a graph without edges the component of -1 is `{-1}`, and in `0 - 1` it has three elements. -/
example (it : IntIter) : (∃ V, zchainComponent it (-1) (![![0, 0], ![0, 0]] : Adj 2) = .ok V ∧ -1 ∈ V ∧ 1 ∉ V) ∧
    ∃ V, zchainComponent it (-1) (![![0, 1], ![1, 0]] : Adj 2) = .ok V ∧ -1 ∈ V ∧ 0 ∈ V ∧ 1 ∈ V := by
  constructor
  · obtain ⟨V, h1, h2, h3⟩ := (C159_chain_component it (-1) (![![0, 0], ![0, 0]] : Adj 2)).1 1 (.inr rfl)
    refine ⟨V, h1, (h2 _).2 (.inl rfl), fun h => ?_⟩
    obtain ⟨y, hy⟩ := (h3 (by decide)).1 h
    revert y
    unfold UndEdge
    decide
  · obtain ⟨V, h1, h2, h3⟩ := (C159_chain_component it (-1) (![![0, 1], ![1, 0]] : Adj 2)).1 1 (.inr rfl)
    exact ⟨V, h1, (h2 _).2 (.inl rfl), (h2 _).2 (.inr ⟨0, rfl, .single (by unfold UndEdge; decide)⟩), (h3 (by decide)).2 ⟨0, by unfold UndEdge; decide⟩⟩

end Verif
