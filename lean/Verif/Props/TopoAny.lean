import Verif.Proof.TopoAny
import Verif.Props.FloatMore
import Verif.Props.Enum

/-!
# C146: `topological_ordering` and `is_dag` for entries of any sign
-/

namespace Verif
open Spec
variable {p : Nat}

/-- The entries in column `v` add up to zero. -/
def Spec.ZeroColumn (A : Adj p) (v : Fin p) : Prop := ∑ u, A u v = 0

/-- In an acyclic graph the edges are directed. -/
theorem Spec.Acyclic.dir_iff {A : Adj p} (h : Acyclic A) {i j : Fin p} : DirEdge A i j ↔ Edge A i j := by
  refine ⟨fun h => h.1, fun hij => ⟨hij, ?_⟩⟩
  by_contra hc
  exact h i ((Relation.TransGen.single hij).tail hc)

/-- In an acyclic graph every node is freed, when the nodes without parents are among the starting nodes. -/
theorem Spec.Acyclic.freed {A : Adj p} (h : Acyclic A) {Z : Fin p → Prop} (hZ : ∀ v, (∀ u, A u v = 0) → Z v) (v : Fin p) : Freed A Z v := by
  have : IsTrans (Fin p) (Relation.TransGen (Edge A)) := ⟨fun _ _ _ => Relation.TransGen.trans⟩
  have : Std.Irrefl (Relation.TransGen (Edge A)) := ⟨h⟩
  have wf : WellFounded (Relation.TransGen (Edge A)) := Finite.wellFounded_of_trans_of_irrefl _
  induction v using wf.induction with
  | _ v ih =>
    by_cases hex : ∃ u, DirEdge A u v
    · exact .parents hex (fun u hu => ih u (.single hu.1))
    · refine .zero (hZ v fun u => ?_)
      by_contra hc
      exact hex ⟨u, h.dir_iff.2 hc⟩

theorem mem_start {A : Adj p} {v : Fin p} : v ∈ (whereVec (fun j => decide (colSum A j = 0))).reverse ↔ ZeroColumn A v := by
  rw [List.mem_reverse, mem_whereVec, decide_eq_true_iff]
  rfl

theorem freed_congr {A : Adj p} {Z Z' : Fin p → Prop} (h : ∀ v, Z v ↔ Z' v) (v : Fin p) : Freed A Z v ↔ Freed A Z' v := by
  rw [show Z = Z' from funext fun v => propext (h v)]

open Classical in
theorem topologicalOrdering_any (it : SetIter p) (A : Adj p) :
    ∃ l, (topologicalOrdering it A = if (∑ i, ∑ j, if UndEdge A i j then A i j else 0) ≤ 0 ∧
        (∑ i, ∑ j, if DirEdge A i j ∧ Freed A (ZeroColumn A) i then 0 else A i j) ≤ 0 then .ok l else .error .valueError) ∧
      (∀ v, v ∈ l ↔ Freed A (ZeroColumn A) v) ∧
      ∀ v, l.count v = (if ZeroColumn A v then 1 else 0) +
        if (∃ u, DirEdge A u v) ∧ ∀ u, DirEdge A u v → Freed A (ZeroColumn A) u then 1 else 0 := by
  obtain ⟨r, hr, h1, h2, h3⟩ := topoLoop_exact it A (whereVec (fun j => decide (colSum A j = 0))).reverse (by
    rw [List.nodup_reverse]; exact nodup_whereVec)
  refine ⟨r.2, ?_, fun v => ?_, fun v => ?_⟩
  · have hu : sumAll (onlyUndirected A) = ∑ i, ∑ j, if UndEdge A i j then A i j else 0 := rfl
    have hd : sumAll r.1 = ∑ i, ∑ j, if DirEdge A i j ∧ Freed A (ZeroColumn A) i then 0 else A i j := by
      unfold sumAll
      refine Finset.sum_congr rfl fun i _ => Finset.sum_congr rfl fun j _ => ?_
      rw [h2, if_congr (and_congr_right' (freed_congr (fun v => mem_start) i)) rfl rfl]
    unfold topologicalOrdering
    rw [hr]
    dsimp only
    rw [hu, hd]
    by_cases c1 : (∑ i, ∑ j, if UndEdge A i j then A i j else 0) ≤ 0
    · rw [if_neg (by omega)]
      by_cases c2 : (∑ i, ∑ j, if DirEdge A i j ∧ Freed A (ZeroColumn A) i then 0 else A i j) ≤ 0
      · rw [if_neg (by omega), if_pos ⟨c1, c2⟩]
      · rw [if_pos (by omega), if_neg (fun h => c2 h.2)]
    · rw [if_pos (by omega), if_neg (fun h => c1 h.1)]
  · rw [h1, freed_congr (fun v => mem_start)]
  · rw [h3, if_congr mem_start rfl rfl]
    congr 1
    exact if_congr (and_congr_right' (forall_congr' fun u => imp_congr_right fun _ => freed_congr (fun v => mem_start) u)) rfl rfl

open Classical in
/-- C146: what `is_dag` decides for any matrix of integers: that neither the entries of the undirected edges nor the entries that remain when
the edges out of the freed nodes have been removed have a positive sum. -/
theorem C146_is_dag_exact (it : SetIter p) (A : Adj p) :
    isDag it A = true ↔ (∑ i, ∑ j, if UndEdge A i j then A i j else 0) ≤ 0 ∧
      (∑ i, ∑ j, if DirEdge A i j ∧ Freed A (ZeroColumn A) i then 0 else A i j) ≤ 0 := by
  obtain ⟨l, hl, -, -⟩ := topologicalOrdering_any it A
  unfold isDag
  rw [hl]
  split
  · rename_i h
    split at h
    · simpa
    · cases h
  · rename_i h
    split at h
    · cases h
    · rename_i hn
      simp only [Bool.false_eq_true, false_iff]
      exact hn

open Classical in
/-- C146: how often each node occurs in a list that `topological_ordering` returns: once for being a start, once more for having parents that
are all freed. -/
theorem C146_occurrences (it : SetIter p) (A : Adj p) (l : List (Fin p)) (h : topologicalOrdering it A = .ok l) (v : Fin p) :
    (v ∈ l ↔ Freed A (ZeroColumn A) v) ∧ l.count v = (if ZeroColumn A v then 1 else 0) +
      if (∃ u, DirEdge A u v) ∧ ∀ u, DirEdge A u v → Freed A (ZeroColumn A) u then 1 else 0 := by
  obtain ⟨l', hl, h1, h2⟩ := topologicalOrdering_any it A
  rw [hl] at h
  split at h
  · injection h with h
    subst h
    exact ⟨h1 v, h2 v⟩
  · cases h

/-- C146: for any matrix of integers `is_dag` does not depend on the order in which sets are visited, nor do the nodes in the list and
how often they occur. -/
theorem C146_iteration_order (it it' : SetIter p) (A : Adj p) : isDag it A = isDag it' A ∧
    ∀ l l', topologicalOrdering it A = .ok l → topologicalOrdering it' A = .ok l' → l.Perm l' := by
  constructor
  · rw [Bool.eq_iff_iff, C146_is_dag_exact, C146_is_dag_exact]
  · intro l l' h h'
    rw [List.perm_iff_count]
    intro v
    rw [(C146_occurrences it A l h v).2, (C146_occurrences it' A l' h' v).2]

/-- C146: every DAG passes, whatever the signs of its weights, and the list contains all nodes.  No node is repeated exactly when no node with
parents has weights that add up to zero. -/
theorem C146_dag_accepted (it : SetIter p) (A : Adj p) (hac : Acyclic A) : isDag it A = true ∧
    ∃ l, topologicalOrdering it A = .ok l ∧ (∀ v, v ∈ l) ∧ (l.Nodup ↔ ∀ v, (∃ u, Edge A u v) → ∑ u, A u v ≠ 0) := by
  classical
  have hz : ∀ v, (∀ u, A u v = 0) → ZeroColumn A v := fun v h => Finset.sum_eq_zero fun u _ => h u
  have hf := hac.freed hz
  have hd : isDag it A = true := by
    rw [C146_is_dag_exact]
    constructor
    · refine le_of_eq (Finset.sum_eq_zero fun i _ => Finset.sum_eq_zero fun j _ => if_neg ?_)
      intro h
      exact (hac.dir_iff.2 h.1).2 |> h.2
    · refine le_of_eq (Finset.sum_eq_zero fun i _ => Finset.sum_eq_zero fun j _ => ?_)
      split
      · rfl
      · rename_i h
        by_contra hc
        exact h ⟨hac.dir_iff.2 hc, hf i⟩
  refine ⟨hd, ?_⟩
  unfold isDag at hd
  cases h : topologicalOrdering it A with
  | error e => rw [h] at hd; cases hd
  | ok l =>
    refine ⟨l, rfl, fun v => ((C146_occurrences it A l h v).1).2 (hf v), ?_⟩
    have hcnt := fun v => (C146_occurrences it A l h v).2
    rw [List.nodup_iff_count_le_one]
    constructor
    · intro hn v hex hs
      have h1 := hn v
      rw [hcnt v, if_pos (show ZeroColumn A v from hs), if_pos ⟨hex.imp fun u hu => hac.dir_iff.2 hu, fun u _ => hf u⟩] at h1
      omega
    · intro hn v
      rw [hcnt v]
      by_cases hs : ZeroColumn A v
      · rw [if_neg (c := _ ∧ _) (fun h => hn v (h.1.imp fun u hu => hu.1) hs)]
        split <;> omega
      · rw [if_neg hs]
        split <;> omega

/-! ### No node has weights that add up to zero -/

/-- The weights of the edges into a node with parents do not add up to zero. -/
def Spec.NoZeroSums (A : Adj p) : Prop := ∀ v, (∃ u, Edge A u v) → ∑ u, A u v ≠ 0

theorem support_eq {A : Adj p} {i j : Fin p} : support A i j = 0 ↔ A i j = 0 := by
  unfold support; split <;> simp_all

theorem support_nonneg (A : Adj p) : Nonneg (support A) := by
  intro i j; unfold support; split <;> simp

theorem support_acyclic {A : Adj p} (h : Acyclic A) : Acyclic (support A) := by
  have : Edge (support A) = Edge A := by
    funext i j
    exact propext (not_congr support_eq)
  unfold Acyclic
  rw [this]
  exact h

theorem pa_pattern {A B : Adj p} (h : ∀ i j, A i j = 0 ↔ B i j = 0) (i : Fin p) : pa i A = pa i B := by
  ext j; rw [mem_pa, mem_pa, ne_eq, h, h]

theorem ch_pattern {A B : Adj p} (h : ∀ i j, A i j = 0 ↔ B i j = 0) (i : Fin p) : ch i A = ch i B := by
  ext j; rw [mem_ch, mem_ch, ne_eq, h, h]

theorem topoInner_pattern (i : Fin p) (js : List (Fin p)) (A B : Adj p) (sinks : List (Fin p)) (h : ∀ i j, A i j = 0 ↔ B i j = 0) :
    (∀ a b, (topoInner i js A sinks).1 a b = 0 ↔ (topoInner i js B sinks).1 a b = 0) ∧ (topoInner i js A sinks).2 = (topoInner i js B sinks).2 := by
  induction js generalizing A B sinks with
  | nil => exact ⟨h, rfl⟩
  | cons j js ih =>
    simp only [topoInner]
    have h' : ∀ a b, setEntry A i j 0 a b = 0 ↔ setEntry B i j 0 a b = 0 := by
      intro a b; unfold setEntry; split
      · rfl
      · exact h a b
    rw [pa_pattern h']
    exact ih _ _ _ h'

theorem topoLoop_pattern (it : SetIter p) (n : Nat) (A B : Adj p) (sinks ord : List (Fin p)) (h : ∀ i j, A i j = 0 ↔ B i j = 0) :
    (topoLoop it n A sinks ord).map Prod.snd = (topoLoop it n B sinks ord).map Prod.snd := by
  induction n generalizing A B sinks ord with
  | zero =>
    cases sinks with
    | nil => rw [topoLoop, topoLoop]; rfl
    | cons i s => rw [topoLoop, topoLoop]
  | succ n ih =>
    cases sinks with
    | nil => rw [topoLoop, topoLoop]; rfl
    | cons i s =>
      rw [topoLoop, topoLoop, ch_pattern h]
      obtain ⟨h1, h2⟩ := topoInner_pattern i (it.toList (ch i B)) A B s h
      rw [h2]
      exact ih _ _ _ _ h1

theorem topologicalOrdering_ok {it : SetIter p} {A : Adj p} {l : List (Fin p)} (h : topologicalOrdering it A = .ok l) :
    (topoLoop it (p * p + p) A (whereVec (fun j => decide (colSum A j = 0))).reverse []).map Prod.snd = .ok l := by
  unfold topologicalOrdering at h
  split at h
  · cases h
  · revert h
    cases topoLoop it (p * p + p) A (whereVec (fun j => decide (colSum A j = 0))).reverse [] with
    | error e => intro h; cases h
    | ok r =>
      intro h
      dsimp only at h
      split at h
      · cases h
      · exact h

theorem zeroColumn_iff {A : Adj p} (hn : NoZeroSums A) (v : Fin p) : colSum A v = 0 ↔ ∀ u, A u v = 0 := by
  constructor
  · intro h u
    by_contra hc
    exact hn v ⟨u, hc⟩ h
  · intro h
    exact Finset.sum_eq_zero fun u _ => h u

theorem topologicalOrdering_support (it : SetIter p) {A : Adj p} (hac : Acyclic A) (hn : NoZeroSums A) :
    topologicalOrdering it A = topologicalOrdering it (support A) := by
  obtain ⟨-, l, hl, -⟩ := C146_dag_accepted it A hac
  obtain ⟨-, l', hl', -⟩ := C146_dag_accepted it (support A) (support_acyclic hac)
  have h := topologicalOrdering_ok hl
  have h' := topologicalOrdering_ok hl'
  have hs : (fun j => decide (colSum A j = 0)) = fun j => decide (colSum (support A) j = 0) := by
    funext j
    rw [decide_eq_decide, zeroColumn_iff hn, colSum_eq_zero_iff (support_nonneg A)]
    simp only [support_eq]
  rw [hs, topoLoop_pattern it _ A (support A) _ _ (fun i j => support_eq.symm), h'] at h
  rw [hl, hl']
  injection h with h
  rw [h]

theorem orderEdges_support (it : SetIter p) {A : Adj p} (hac : Acyclic A) (hn : NoZeroSums A) : orderEdges it A = orderEdges it (support A) := by
  unfold orderEdges isDag
  rw [topologicalOrdering_support it hac hn]
  simp only [ne_eq, support_eq]

theorem dagToCpdag_support (it : SetIter p) {A : Adj p} (hac : Acyclic A) (hn : NoZeroSums A) : dagToCpdag it A = dagToCpdag it (support A) := by
  unfold dagToCpdag
  rw [orderEdges_support it hac hn]

theorem vstructures_pattern (it : SetIter p) {A B : Adj p} (h : ∀ i j, A i j = 0 ↔ B i j = 0) : vstructures it A = vstructures it B := by
  unfold vstructures
  simp only [onlyDirected_ne, ne_eq, h, pa_pattern h]

theorem skeleton_support {A : Adj p} (hac : Acyclic A) : skeleton A = skeleton (support A) := by
  funext i j
  unfold skeleton
  have : A i j + A j i ≠ 0 ↔ support A i j + support A j i ≠ 0 := by
    have h1 : DirEdge A i j ↔ Edge A i j := hac.dir_iff
    unfold DirEdge Edge at h1
    by_cases hij : A i j = 0
    · simp [hij, support_eq.2 hij, support_eq]
    · have hji := (h1.2 hij).2
      simp [hji, support_eq.2 hji, support_eq]
  rw [if_congr this rfl rfl]

theorem isConsistentExtension_support (it : SetIter p) {A : Adj p} (hac : Acyclic A) (hn : NoZeroSums A) (P : Adj p) :
    isConsistentExtension it A P = isConsistentExtension it (support A) P := by
  unfold isConsistentExtension isDag
  rw [topologicalOrdering_support it hac hn, vstructures_pattern it (B := support A) (fun i j => support_eq.symm), skeleton_support hac]
  simp only [ne_eq, support_eq]

theorem dagToIcpdag_support (it : SetIter p) {A : Adj p} (hac : Acyclic A) (hn : NoZeroSums A) (I : List (Fin p)) :
    dagToIcpdag it A I = dagToIcpdag it (support A) I := by
  unfold dagToIcpdag targetEdges
  rw [dagToCpdag_support it hac hn]
  simp only [isConsistentExtension_support it hac hn, pa_pattern (B := support A) (fun i j => support_eq.symm),
    ch_pattern (B := support A) (fun i j => support_eq.symm)]

/-- C146: for a DAG with weights of any sign none of whose columns adds up to zero, the list is a topological order, and `dag_to_cpdag` and
`dag_to_icpdag` return the essential graphs. -/
theorem C146_essential (it : SetIter p) (A : Adj p) (hac : Acyclic A) (hn : NoZeroSums A) :
    (∃ l, topologicalOrdering it A = .ok l ∧ IsTopoOrder A l) ∧
    (∃ C, dagToCpdag it A = .ok C ∧ ∀ i j, (C i j = 1 ↔ ∃ H, Acyclic H ∧ MarkovEquiv A H ∧ Edge H i j) ∧ (C i j = 0 ∨ C i j = 1)) ∧
    ∀ I : List (Fin p), ∃ P, dagToIcpdag it A I = .ok P ∧
      ∀ i j, (P i j = 1 ↔ ∃ H, Acyclic H ∧ IEquiv I.toFinset A H ∧ Edge H i j) ∧ (P i j = 0 ∨ P i j = 1) := by
  have hs := support_acyclic hac
  have hm := markovEquiv_support A
  have hp : ∀ I : Finset (Fin p), IEquiv I A (support A) := fun I => ⟨hm, fun _ _ _ => edge_support.symm⟩
  refine ⟨?_, ?_, fun I => ?_⟩
  · obtain ⟨h1, h2⟩ := topologicalOrdering_spec it (support A) (support_nonneg A)
    rw [topologicalOrdering_support it hac hn]
    obtain ⟨-, l, hl, -⟩ := C146_dag_accepted it (support A) hs
    obtain ⟨h3, h4, h5⟩ := h1 l hl
    exact ⟨l, hl, h3, h4, fun i j hij => h5 i j (edge_support.2 hij)⟩
  · obtain ⟨C, hC, h⟩ := C17_essential_graph it (support A) (support_nonneg A) hs
    refine ⟨C, by rw [dagToCpdag_support it hac hn, hC], fun i j => ⟨?_, ?_⟩⟩
    · rw [(h i j).1]
      exact exists_congr fun H => and_congr_right fun _ => and_congr_left fun _ => ⟨hm.trans, hm.symm.trans⟩
    · rw [(h i j).1, (h i j).2]
      exact (em _).symm
  · obtain ⟨P, hP, h⟩ := C21_interventional_essential_graph it (support A) (support_nonneg A) hs I
    refine ⟨P, by rw [dagToIcpdag_support it hac hn, hP], fun i j => ⟨?_, ?_⟩⟩
    · rw [(h i j).1]
      refine exists_congr fun H => and_congr_right fun _ => and_congr_left fun _ => ?_
      exact ⟨fun h => ⟨hm.trans h.1, fun i hi k => edge_support.symm.trans (h.2 i hi k)⟩,
        fun h => ⟨hm.symm.trans h.1, fun i hi k => edge_support.trans (h.2 i hi k)⟩⟩
    · rw [(h i j).1, (h i j).2]
      exact (em _).symm

/-- C146: the same for `mec` and `imec`: each member of the class once. -/
theorem C146_classes (it : SetIter p) (A : Adj p) (hac : Acyclic A) (hn : NoZeroSums A) (hp : 0 < p) (c : Bool) :
    (∃ l, mec it A c = .ok l ∧ l.Nodup ∧ ∀ H, H ∈ l ↔ ZeroOne H ∧ Acyclic H ∧ MarkovEquiv A H) ∧
    ∀ I : Finset (Fin p), ∃ l, imec it A (I.image fun i : Fin p => (i.val : Int)) c = .ok l ∧ l.Nodup ∧
      ∀ H, H ∈ l ↔ ZeroOne H ∧ Acyclic H ∧ IEquiv I A H := by
  by_cases hnn : Nonneg A
  · exact ⟨C24_mec it A hnn hac c (.inl hp), fun I => C26_imec it A hnn hac I c (.inl hp)⟩
  have hch : isChainGraph A = false := by
    rw [← Bool.not_eq_true]
    intro h
    unfold isChainGraph at h
    rw [decide_eq_true_iff] at h
    apply hnn
    intro i j
    rw [h i j]
    unfold chainGraph
    split <;> simp
  have hd : isDag it A = isDag it (support A) := by
    unfold isDag
    rw [topologicalOrdering_support it hac hn]
  have hs := support_acyclic hac
  have hm := markovEquiv_support A
  have h1 : mec it A c = mec it (support A) false := by
    unfold mec
    rw [hd, dagToCpdag_support it hac hn, hch]
    simp
  have h2 : ∀ I, imec it A I c = imec it (support A) I false := by
    intro I
    unfold imec
    simp only [hd, dagToIcpdag_support it hac hn, hch]
    simp
  refine ⟨?_, fun I => ?_⟩
  · obtain ⟨l, hl, hnd, h⟩ := C24_mec it (support A) (support_nonneg A) hs false (.inr rfl)
    refine ⟨l, by rw [h1, hl], hnd, fun H => ?_⟩
    rw [h]
    exact and_congr_right fun _ => and_congr_right fun _ => ⟨hm.trans, hm.symm.trans⟩
  · obtain ⟨l, hl, hnd, h⟩ := C26_imec it (support A) (support_nonneg A) hs I false (.inr rfl)
    refine ⟨l, by rw [h2, hl], hnd, fun H => ?_⟩
    rw [h]
    exact and_congr_right fun _ => and_congr_right fun _ => ⟨fun h => ⟨hm.trans h.1, fun i hi k => edge_support.symm.trans (h.2 i hi k)⟩,
        fun h => ⟨hm.symm.trans h.1, fun i hi k => edge_support.trans (h.2 i hi k)⟩⟩

/-! ### Floating-point entries -/

open Classical in
theorem ftopologicalOrdering_any (S : Summer) (it : SetIter p) (A : FAdj p) :
    ∃ l, (ftopologicalOrdering S it A = if (fsumAll S (fun i j => if UndEdge (graphOf A) i j then A i j else .fin 0)).gtZero = false ∧
        (fsumAll S fun i j => if DirEdge (graphOf A) i j ∧ Freed (graphOf A) (fun v => fcolSum S A v = .fin 0) i then .fin 0 else A i j).gtZero = false
          then .ok l else .error .valueError) ∧
      (∀ v, v ∈ l ↔ Freed (graphOf A) (fun v => fcolSum S A v = .fin 0) v) ∧
      (∀ v, l.count v = (if fcolSum S A v = .fin 0 then 1 else 0) + if (∃ u, DirEdge (graphOf A) u v) ∧
        ∀ u, DirEdge (graphOf A) u v → Freed (graphOf A) (fun v => fcolSum S A v = .fin 0) u then 1 else 0) ∧
      (topoLoop it (p * p + p) (graphOf A) (whereVec (fun j => (fcolSum S A j).isZero)).reverse []).map Prod.snd = .ok l := by
  have hms : ∀ v, v ∈ (whereVec (fun j => (fcolSum S A j).isZero)).reverse ↔ fcolSum S A v = .fin 0 := by
    intro v
    rw [List.mem_reverse, mem_whereVec, Dbl.isZero, decide_eq_true_iff]
  obtain ⟨r, hr, h1, h2, h3⟩ := topoLoop_exact it (graphOf A) (whereVec (fun j => (fcolSum S A j).isZero)).reverse (by
    rw [List.nodup_reverse]; exact nodup_whereVec)
  have hf := ftopoLoop_eq it (p * p + p) (graphOf A) (whereVec (fun j => (fcolSum S A j).isZero)).reverse [] (graphOf_within A)
  rw [masked_self, hr] at hf
  refine ⟨r.2, ?_, fun v => ?_, fun v => ?_, by rw [hr]; rfl⟩
  · have hu : fonlyUndirected A = fun i j => if UndEdge (graphOf A) i j then A i j else .fin 0 := by
      funext i j
      by_cases h : UndEdge (graphOf A) i j
      · rw [if_pos h, (C141_parts A i j).2.2.1 h]
      · rw [if_neg h, (C141_parts A i j).2.2.2 h]
    have hd : masked A r.1 = fun i j => if DirEdge (graphOf A) i j ∧ Freed (graphOf A) (fun v => fcolSum S A v = .fin 0) i then .fin 0 else A i j := by
      funext i j
      unfold masked
      rw [h2, if_congr (Q := DirEdge (graphOf A) i j ∧ Freed (graphOf A) (fun v => fcolSum S A v = .fin 0) i)
        (and_congr_right' (freed_congr hms i)) rfl rfl]
      by_cases h : DirEdge (graphOf A) i j ∧ Freed (graphOf A) (fun v => fcolSum S A v = .fin 0) i
      · simp [h]
      · rw [if_neg h, if_neg h]
        split
        · rfl
        · rename_i h0; rw [graphOf_ne, not_not] at h0; exact h0.symm
    unfold ftopologicalOrdering
    rw [hf, hu]
    simp only [Except.map]
    rw [hd]
    by_cases c1 : (fsumAll S (fun i j => if UndEdge (graphOf A) i j then A i j else .fin 0)).gtZero = true
    · rw [if_pos c1, if_neg (fun h => by rw [h.1] at c1; cases c1)]
    · rw [if_neg c1]
      by_cases c2 : (fsumAll S fun i j => if DirEdge (graphOf A) i j ∧ Freed (graphOf A) (fun v => fcolSum S A v = .fin 0) i then .fin 0 else A i j).gtZero = true
      · rw [if_pos c2, if_neg (fun h => by rw [h.2] at c2; cases c2)]
      · rw [if_neg c2, if_pos ⟨by simpa using c1, by simpa using c2⟩]
  · rw [h1, freed_congr hms]
  · rw [h3, if_congr (hms v) rfl rfl]
    congr 1
    exact if_congr (and_congr_right' (forall_congr' fun u => imp_congr_right fun _ => freed_congr hms u)) rfl rfl

open Classical in
/-- C146: what `is_dag` decides for any matrix of doubles, with negative numbers, infinities and NaN, for any order of summation; and how often
each node occurs in the list of `topological_ordering`. -/
theorem C146_float_exact (S : Summer) (it : SetIter p) (A : FAdj p) :
    (fisDag S it A = true ↔ (fsumAll S (fun i j => if UndEdge (graphOf A) i j then A i j else .fin 0)).gtZero = false ∧
      (fsumAll S fun i j => if DirEdge (graphOf A) i j ∧ Freed (graphOf A) (fun v => fcolSum S A v = .fin 0) i then .fin 0 else A i j).gtZero = false) ∧
    ∀ l, ftopologicalOrdering S it A = .ok l → ∀ v, l.count v = (if fcolSum S A v = .fin 0 then 1 else 0) +
      if (∃ u, DirEdge (graphOf A) u v) ∧ ∀ u, DirEdge (graphOf A) u v → Freed (graphOf A) (fun v => fcolSum S A v = .fin 0) u then 1 else 0 := by
  obtain ⟨l, hl, -, h2, -⟩ := ftopologicalOrdering_any S it A
  constructor
  · unfold fisDag
    rw [hl]
    split
    · rename_i h
      split at h
      · rename_i hc; simpa using hc
      · cases h
    · rename_i h
      split at h
      · cases h
      · rename_i hn
        simp only [Bool.false_eq_true, false_iff]
        exact hn
  · intro l' h
    rw [hl] at h
    split at h
    · injection h with h
      subst h
      exact h2
    · cases h

theorem sumOf_zero {l : List Dbl} {s : Dbl} (h : SumOf l s) (hl : ∀ x ∈ l, x = .fin 0) : s = .fin 0 := by
  induction h with
  | nil => rfl
  | single x => exact hl x (by simp)
  | add hp _ _ ih1 ih2 =>
    rw [ih1 fun x hx => hl x (hp.mem_iff.2 (by simp [hx])), ih2 fun x hx => hl x (hp.mem_iff.2 (by simp [hx]))]
    simp [Dbl.add, Dbl.round]

/-- C146: every matrix of doubles whose graph is acyclic passes `is_dag`, whatever the weights are and however the sums are computed, and the
list contains all nodes.  If no computed sum of the weights into a node with parents is zero, `topological_ordering` does what it does for the graph. -/
theorem C146_float_dag (S : Summer) (it : SetIter p) (A : FAdj p) (hac : Acyclic (graphOf A)) : fisDag S it A = true ∧
    ∃ l, ftopologicalOrdering S it A = .ok l ∧ (∀ v, v ∈ l) ∧ (l.Nodup ↔ ∀ v, (∃ u, A u v ≠ .fin 0) → fcolSum S A v ≠ .fin 0) ∧
      ((∀ v, (∃ u, A u v ≠ .fin 0) → fcolSum S A v ≠ .fin 0) → IsTopoOrder (graphOf A) l ∧ topologicalOrdering it (graphOf A) = .ok l) := by
  classical
  have hz : ∀ v, (∀ u, graphOf A u v = 0) → fcolSum S A v = .fin 0 := by
    intro v h
    refine sumOf_zero (S.isSum _) ?_
    intro x hx
    obtain ⟨u, -, rfl⟩ := List.mem_map.1 hx
    exact graphOf_eq.1 (h u)
  have hf := hac.freed hz
  have hdoc := C146_float_exact S it A
  have hd : fisDag S it A = true := by
    rw [hdoc.1]
    have h0 : ∀ B : FAdj p, (∀ i j, B i j = .fin 0) → (fsumAll S B).gtZero = false := by
      intro B hB
      have : fsumAll S B = .fin 0 := by
        refine sumOf_zero (S.isSum _) ?_
        intro x hx
        obtain ⟨e, -, rfl⟩ := List.mem_map.1 hx
        exact hB _ _
      rw [this]
      simp [Dbl.gtZero]
    refine ⟨h0 _ fun i j => if_neg fun h => (hac.dir_iff.2 h.1).2 |> h.2, h0 _ fun i j => ?_⟩
    split
    · rfl
    · rename_i h
      by_contra hc
      exact h ⟨hac.dir_iff.2 (graphOf_ne.2 hc), hf i⟩
  refine ⟨hd, ?_⟩
  obtain ⟨l, hl, h1, h2, h3⟩ := ftopologicalOrdering_any S it A
  have hok : ftopologicalOrdering S it A = .ok l := by
    unfold fisDag at hd
    rw [hl] at hd ⊢
    split at hd
    · rename_i h
      split at h
      · rename_i hc; rw [if_pos hc]
      · cases h
    · cases hd
  refine ⟨l, hok, fun v => (h1 v).2 (hf v), ?_, fun hn => ?_⟩
  · rw [List.nodup_iff_count_le_one]
    constructor
    · intro hn v hex hs
      have h4 := hn v
      rw [h2 v, if_pos hs, if_pos ⟨hex.imp fun u hu => hac.dir_iff.2 (graphOf_ne.2 hu), fun u _ => hf u⟩] at h4
      omega
    · intro hn v
      rw [h2 v]
      by_cases hs : fcolSum S A v = .fin 0
      · rw [if_neg (c := _ ∧ _) (fun h => hn v (h.1.imp fun u hu => graphOf_ne.1 hu.1) hs)]
        split <;> omega
      · rw [if_neg hs]
        split <;> omega
  · have hst : (fun j => (fcolSum S A j).isZero) = fun j => decide (colSum (graphOf A) j = 0) := by
      funext j
      rw [Dbl.isZero, decide_eq_decide, colSum_eq_zero_iff (graphOf_nonneg A)]
      refine ⟨fun h u => ?_, hz j⟩
      rw [graphOf_eq]
      by_contra hc
      exact hn j ⟨u, hc⟩ h
    obtain ⟨-, l', hl', -⟩ := C146_dag_accepted it (graphOf A) hac
    have h4 := topologicalOrdering_ok hl'
    rw [hst, h4] at h3
    injection h3 with h3
    subst h3
    exact ⟨(topologicalOrdering_spec it (graphOf A) (graphOf_nonneg A)).1 _ hl', hl'⟩

/-- C146: then `dag_to_cpdag` and `dag_to_icpdag` return the essential graphs of the graph of a matrix of doubles, negative weights, infinities
and NaN included. -/
theorem C146_float_essential (S : Summer) (it : SetIter p) (A : FAdj p) (hA : AllDoubles A) (hac : Acyclic (graphOf A))
    (hn : ∀ v, (∃ u, A u v ≠ .fin 0) → fcolSum S A v ≠ .fin 0) :
    (∃ C, fdagToCpdag S it A = .ok C ∧ ∀ i j, (C i j = 1 ↔ ∃ H, Acyclic H ∧ MarkovEquiv (graphOf A) H ∧ Edge H i j) ∧ (C i j = 0 ∨ C i j = 1)) ∧
    ∀ I : List (Fin p), ∃ P, fdagToIcpdag S it A I = .ok P ∧
      ∀ i j, (P i j = 1 ↔ ∃ H, Acyclic H ∧ IEquiv I.toFinset (graphOf A) H ∧ Edge H i j) ∧ (P i j = 0 ∨ P i j = 1) := by
  have ht : ftopologicalOrdering S it A = topologicalOrdering it (graphOf A) := by
    obtain ⟨-, l, hl, -, -, h⟩ := C146_float_dag S it A hac
    rw [hl, (h hn).2]
  have hd : fisDag S it A = isDag it (graphOf A) := by
    unfold fisDag isDag
    rw [ht]
    rfl
  have ho : forderEdges S it A = orderEdges it (graphOf A) := by
    unfold forderEdges orderEdges
    rw [hd, ht]
    simp only [isZero_graphOf]
    congr!
    simp
  have hc : fdagToCpdag S it A = dagToCpdag it (graphOf A) := by
    unfold fdagToCpdag dagToCpdag
    rw [ho]
    rfl
  have hsk : fskeleton A = skeleton (graphOf A) := by
    funext i j
    have hnc : ¬ Cancelling A i j := by
      rintro ⟨q, hq, h1, h2⟩
      have e1 : Edge (graphOf A) i j := graphOf_ne.2 (by rw [h1]; simpa using hq)
      have e2 : Edge (graphOf A) j i := graphOf_ne.2 (by rw [h2]; simpa using hq)
      exact e2 (hac.dir_iff.2 e1).2
    obtain ⟨h1, h01⟩ := fskeleton_one hA i j
    have h2 : skeleton (graphOf A) i j = if Adjacent (graphOf A) i j then 1 else 0 := by
      unfold skeleton Adjacent
      rcases graphOf_zeroOne A i j with h | h <;> rcases graphOf_zeroOne A j i with h' | h' <;> simp [h, h']
    rw [h2]
    split
    · rename_i hadj; exact h1.2 ⟨hadj, hnc⟩
    · rename_i hadj; exact h01.resolve_right fun h => hadj (h1.1 h).1
  have hi : ∀ I, fdagToIcpdag S it A I = dagToIcpdag it (graphOf A) I := by
    intro I
    unfold fdagToIcpdag dagToIcpdag
    have ht : ftargetEdges it A I = targetEdges it (graphOf A) I := by
      unfold ftargetEdges targetEdges
      simp only [fch_eq, fpa_eq]
    have he : ∀ P, fisConsistentExtension S it A P = isConsistentExtension it (graphOf A) P := by
      intro P
      unfold fisConsistentExtension isConsistentExtension
      rw [hd, fvstructures_eq, hsk]
      simp only [isZero_graphOf, decide_eq_false_iff_not, ne_eq]
    rw [hc, ht]
    simp only [he]
    rfl
  refine ⟨?_, fun I => ?_⟩
  · obtain ⟨C, hC, h⟩ := C17_essential_graph it (graphOf A) (graphOf_nonneg A) hac
    refine ⟨C, by rw [hc, hC], fun i j => ⟨(h i j).1, ?_⟩⟩
    rw [(h i j).1, (h i j).2]
    exact (em _).symm
  · obtain ⟨P, hP, h⟩ := C21_interventional_essential_graph it (graphOf A) (graphOf_nonneg A) hac I
    refine ⟨P, by rw [hi, hP], fun i j => ⟨(h i j).1, ?_⟩⟩
    rw [(h i j).1, (h i j).2]
    exact (em _).symm

/-! ### A DAG that `dag_to_cpdag` does not accept -/

/-- The collider `0 → 2 ← 1` with opposite weights. -/
def colliderA : Adj 3 := ![![0, 0, 1], ![0, 0, -1], ![0, 0, 0]]

theorem colliderA_acyclic : Acyclic colliderA := by
  have key : ∀ a b, Edge colliderA a b → a < b := by unfold Edge; decide
  intro i hi
  have : ∀ a b, Relation.TransGen (Edge colliderA) a b → a < b := by
    intro a b hab
    induction hab with
    | single h => exact key _ _ h
    | tail _ h ih => exact lt_trans ih (key _ _ h)
  exact lt_irrefl _ (this i i hi)

theorem toList_empty (it : SetIter p) : it.toList ∅ = [] := by
  rw [List.eq_nil_iff_forall_not_mem]
  intro a
  rw [it.mem]
  simp

theorem toList_singleton (it : SetIter p) (a : Fin p) : it.toList {a} = [a] := by
  have h := it.nodup {a}
  have hm := fun x => it.mem {a} x
  cases hl : it.toList {a} with
  | nil => have := (hm a).2 (by simp); rw [hl] at this; cases this
  | cons b l =>
    have hb : b = a := by have := (hm b).1 (by rw [hl]; simp); simpa using this
    subst hb
    cases l with
    | nil => rfl
    | cons c l =>
      have hc : c = b := by have := (hm c).1 (by rw [hl]; simp); simpa using this
      subst hc
      rw [hl] at h
      simp at h

theorem colliderA_ordering (it : SetIter 3) : topologicalOrdering it colliderA = .ok [2, 1, 0, 2] := by
  unfold topologicalOrdering
  rw [if_neg (by decide +kernel)]
  have h0 : (whereVec (fun j : Fin 3 => decide (colSum colliderA j = 0))).reverse = [2, 1, 0] := by decide +kernel
  have h1 : ch 2 colliderA = ∅ := by decide +kernel
  have h2 : ch 1 colliderA = {2} := by decide +kernel
  have h3 : pa 2 (setEntry colliderA 1 2 0) = {0} := by decide +kernel
  have h4 : ch 0 (setEntry colliderA 1 2 0) = {2} := by decide +kernel
  have h5 : pa 2 (setEntry (setEntry colliderA 1 2 0) 0 2 0) = ∅ := by decide +kernel
  have h6 : ch 2 (setEntry (setEntry colliderA 1 2 0) 0 2 0) = ∅ := by decide +kernel
  have h7 : ¬ sumAll (setEntry (setEntry colliderA 1 2 0) 0 2 0) > 0 := by decide +kernel
  rw [h0, show 3 * 3 + 3 = 8 + 1 + 1 + 1 + 1 from rfl, topoLoop, h1, toList_empty]
  simp only [topoInner, topoLoop, h2, h3, h4, h5, h6, toList_empty, toList_singleton, Finset.card_singleton, one_ne_zero, if_false,
    Finset.card_empty, if_true, List.nil_append, List.cons_append, h7]

/-- C146: `is_dag` accepts the collider with opposite weights, but `dag_to_cpdag`, `dag_to_icpdag`, `mec` and `imec` raise an `IndexError` for it,
in any order of the sets: the list of `topological_ordering` starts with the collider, which it names twice, and the search for an edge takes a node
that has no parents. -/
theorem C146_violated (it : SetIter 3) (c : Bool) (I : List (Fin 3)) : Acyclic colliderA ∧ isDag it colliderA = true ∧
    topologicalOrdering it colliderA = .ok [2, 1, 0, 2] ∧ dagToCpdag it colliderA = .error .indexError ∧
    dagToIcpdag it colliderA I = .error .indexError ∧ mec it colliderA c = .error .indexError ∧
    imec it colliderA ∅ c = .error .indexError := by
  have hd := (C146_dag_accepted it colliderA colliderA_acyclic).1
  have ho : orderEdges it colliderA = .error .indexError := by
    unfold orderEdges
    rw [hd, colliderA_ordering it]
    have : orderEdgesLoop [2, 1, 0, 2] (3 * 3) 1 (fun a b => if colliderA a b ≠ 0 then -1 else 0) = .error .indexError := by
      cases h : orderEdgesLoop [2, 1, 0, 2] (3 * 3) 1 (fun a b : Fin 3 => if colliderA a b ≠ 0 then -1 else 0) with
      | ok B =>
        have : (match orderEdgesLoop [2, 1, 0, 2] (3 * 3) 1 (fun a b : Fin 3 => if colliderA a b ≠ 0 then -1 else 0) with
          | .ok _ => true | .error _ => false) = false := by decide +kernel
        rw [h] at this
        cases this
      | error e =>
        have : (match orderEdgesLoop [2, 1, 0, 2] (3 * 3) 1 (fun a b : Fin 3 => if colliderA a b ≠ 0 then -1 else 0) with
          | .ok _ => none | .error e => some e) = some Err.indexError := by decide +kernel
        rw [h] at this
        injection this with this
        rw [this]
    simpa using this
  have hc : dagToCpdag it colliderA = .error .indexError := by unfold dagToCpdag; rw [ho]
  have hi : ∀ I, dagToIcpdag it colliderA I = .error .indexError := by intro I; unfold dagToIcpdag; rw [hc]
  have hch : isChainGraph colliderA = false := by decide +kernel
  refine ⟨colliderA_acyclic, hd, colliderA_ordering it, hc, hi I, ?_, ?_⟩
  · unfold mec
    simp [hd, hch, hc]
  · unfold imec
    simp [hd, hch, hi]

/-! ### Cases that meet the hypotheses -/

/-- A DAG with a negative weight and no column that adds up to zero. -/
example : Acyclic (![![0, 2, 1], ![0, 0, -3], ![0, 0, 0]] : Adj 3) ∧ NoZeroSums (![![0, 2, 1], ![0, 0, -3], ![0, 0, 0]] : Adj 3) := by
  constructor
  · have key : ∀ a b, Edge (![![0, 2, 1], ![0, 0, -3], ![0, 0, 0]] : Adj 3) a b → a < b := by unfold Edge; decide
    intro i hi
    have : ∀ a b, Relation.TransGen (Edge (![![0, 2, 1], ![0, 0, -3], ![0, 0, 0]] : Adj 3)) a b → a < b := by
      intro a b hab
      induction hab with
      | single h => exact key _ _ h
      | tail _ h ih => exact lt_trans ih (key _ _ h)
    exact lt_irrefl _ (this i i hi)
  · unfold NoZeroSums Edge; decide +kernel

/-- The two-cycle with weights `1` and `-1`: no column adds up to zero, nothing is freed, and the sums are not positive. -/
example : isDag (SetIter.incr 2) (![![0, 1], ![-1, 0]] : Adj 2) = true := by decide +kernel

end Verif
