import Verif.Model.Int64
import Verif.Props.CyclicClass

/-!
# C154: adjacency matrices of 64-bit integers, whose sums wrap around
-/

namespace Verif
open Spec
variable {p : Nat}

theorem wrap64_of_small {x : Int} (h : |x| < 2 ^ 63) : wrap64 x = x := by
  rw [abs_lt] at h
  unfold wrap64
  omega

theorem wrap64_zero {x : Int} : wrap64 x = 0 ↔ (2 ^ 64 : Int) ∣ x := by
  unfold wrap64
  omega

/-- The entries in column `v` add up to zero modulo 2^64. -/
def Spec.ZeroColumn64 (A : Adj p) (v : Fin p) : Prop := (2 ^ 64 : Int) ∣ ∑ u, A u v

theorem mem_start64 {A : Adj p} {v : Fin p} : v ∈ (whereVec (fun j => decide (wrap64 (colSum A j) = 0))).reverse ↔ ZeroColumn64 A v := by
  rw [List.mem_reverse, mem_whereVec, decide_eq_true_iff, wrap64_zero]
  rfl

open Classical in
theorem wtopologicalOrdering_any (it : SetIter p) (A : Adj p) :
    ∃ l, (wtopologicalOrdering it A = if wrap64 (∑ i, ∑ j, if UndEdge A i j then A i j else 0) ≤ 0 ∧
        wrap64 (∑ i, ∑ j, if DirEdge A i j ∧ Freed A (ZeroColumn64 A) i then 0 else A i j) ≤ 0 then .ok l else .error .valueError) ∧
      (∀ v, v ∈ l ↔ Freed A (ZeroColumn64 A) v) ∧
      ∀ v, l.count v = (if ZeroColumn64 A v then 1 else 0) +
        if (∃ u, DirEdge A u v) ∧ ∀ u, DirEdge A u v → Freed A (ZeroColumn64 A) u then 1 else 0 := by
  obtain ⟨r, hr, h1, h2, h3⟩ := topoLoop_exact it A (whereVec (fun j => decide (wrap64 (colSum A j) = 0))).reverse (by
    rw [List.nodup_reverse]; exact nodup_whereVec)
  refine ⟨r.2, ?_, fun v => ?_, fun v => ?_⟩
  · have hu : sumAll (onlyUndirected A) = ∑ i, ∑ j, if UndEdge A i j then A i j else 0 := rfl
    have hd : sumAll r.1 = ∑ i, ∑ j, if DirEdge A i j ∧ Freed A (ZeroColumn64 A) i then 0 else A i j := by
      unfold sumAll
      refine Finset.sum_congr rfl fun i _ => Finset.sum_congr rfl fun j _ => ?_
      rw [h2, if_congr (and_congr_right' (freed_congr (fun v => mem_start64) i)) rfl rfl]
    unfold wtopologicalOrdering
    rw [hr]
    dsimp only
    rw [hu, hd]
    by_cases c1 : wrap64 (∑ i, ∑ j, if UndEdge A i j then A i j else 0) ≤ 0
    · rw [if_neg (not_lt.2 c1)]
      by_cases c2 : wrap64 (∑ i, ∑ j, if DirEdge A i j ∧ Freed A (ZeroColumn64 A) i then 0 else A i j) ≤ 0
      · rw [if_neg (not_lt.2 c2), if_pos ⟨c1, c2⟩]
      · rw [if_pos (not_le.1 c2), if_neg (fun h => c2 h.2)]
    · rw [if_pos (not_le.1 c1), if_neg (fun h => c1 h.1)]
  · rw [h1, freed_congr (fun v => mem_start64)]
  · rw [h3, if_congr mem_start64 rfl rfl]
    congr 1
    exact if_congr (and_congr_right' (forall_congr' fun u => imp_congr_right fun _ => freed_congr (fun v => mem_start64) u)) rfl rfl

open Classical in
/-- C154: what `is_dag` decides for a matrix of 64-bit integers. -/
theorem C154_is_dag_exact (it : SetIter p) (A : Adj p) :
    wisDag it A = true ↔ wrap64 (∑ i, ∑ j, if UndEdge A i j then A i j else 0) ≤ 0 ∧
      wrap64 (∑ i, ∑ j, if DirEdge A i j ∧ Freed A (ZeroColumn64 A) i then 0 else A i j) ≤ 0 := by
  obtain ⟨l, hl, -, -⟩ := wtopologicalOrdering_any it A
  unfold wisDag
  rw [hl]
  split_ifs with h <;> simp [h]

theorem abs_sumAll_le (A : Adj p) : |sumAll A| ≤ absSum A :=
  (Finset.abs_sum_le_sum_abs _ _).trans (Finset.sum_le_sum fun _ _ => Finset.abs_sum_le_sum_abs _ _)

theorem abs_colSum_le (A : Adj p) (j : Fin p) : |colSum A j| ≤ absSum A :=
  (Finset.abs_sum_le_sum_abs _ _).trans (Finset.sum_le_sum fun i _ =>
    Finset.single_le_sum (f := fun j => |A i j|) (fun _ _ => abs_nonneg _) (Finset.mem_univ j))

theorem wtopologicalOrdering_eq (it : SetIter p) {A : Adj p} (hb : absSum A < 2 ^ 63) : wtopologicalOrdering it A = topologicalOrdering it A := by
  unfold wtopologicalOrdering topologicalOrdering
  have hub : absSum (onlyUndirected A) < 2 ^ 63 := by
    refine lt_of_le_of_lt (absSum_mono fun i j => ?_) hb
    unfold onlyUndirected
    split
    · exact .inr rfl
    · exact .inl rfl
  have hw : (fun j => decide (wrap64 (colSum A j) = 0)) = fun j => decide (colSum A j = 0) := by
    funext j
    rw [wrap64_of_small (lt_of_le_of_lt (abs_colSum_le A j) hb)]
  rw [wrap64_of_small (lt_of_le_of_lt (abs_sumAll_le _) hub), hw]
  split
  · rfl
  · cases h : topoLoop it (p * p + p) A (whereVec fun j => decide (colSum A j = 0)).reverse [] with
    | error e => rfl
    | ok r =>
      have hr : absSum r.1 < 2 ^ 63 := lt_of_le_of_lt (absSum_mono (topoLoop_entries it _ _ _ _ h)) hb
      simp only [wrap64_of_small (lt_of_le_of_lt (abs_sumAll_le r.1) hr)]

theorem wisDag_eq (it : SetIter p) {A : Adj p} (hb : absSum A < 2 ^ 63) : wisDag it A = isDag it A := by
  unfold wisDag isDag
  rw [wtopologicalOrdering_eq it hb]
  cases topologicalOrdering it A <;> rfl

/-- The labels of `order_edges` add up to less than 2^63, if there are less than 2^31 edges. -/
theorem absSum_labels {G O : Adj p} {i : Int} (h : Labels G i O) (hno : ∀ a b, O a b ≠ -1) (hn : nnz G < 2 ^ 31) : absSum O < 2 ^ 63 := by
  have hpos : ∀ a b, O a b ≠ 0 → 1 ≤ O a b ∧ O a b < i := fun a b hab => (h.rng a b hab).resolve_left (hno a b)
  have hcard : (Finset.univ.filter (fun e : Fin p × Fin p => 1 ≤ O e.1 e.2)) = Finset.univ.filter (fun e : Fin p × Fin p => G e.1 e.2 ≠ 0) := by
    ext ⟨a, b⟩
    simp only [Finset.mem_filter, Finset.mem_univ, true_and]
    have : O a b ≠ 0 ↔ G a b ≠ 0 := h.edge a b
    rw [← this]
    exact ⟨fun h => by omega, fun h => (hpos a b h).1⟩
  have hi : (nnz G : Int) = i - 1 := by
    rw [← h.count, hcard]
    rfl
  have hs : absSum O = ∑ e ∈ Finset.univ.filter (fun e : Fin p × Fin p => G e.1 e.2 ≠ 0), |O e.1 e.2| := by
    unfold absSum
    rw [← Finset.sum_product', Finset.sum_filter]
    refine Finset.sum_congr rfl fun e _ => ?_
    split
    · rfl
    · rename_i hc
      have : ¬ O e.1 e.2 ≠ 0 := fun hx => hc ((h.edge _ _).1 hx)
      rw [not_not.1 this, abs_zero]
  have hle : absSum O ≤ (nnz G : Int) * nnz G := by
    rw [hs]
    refine (Finset.sum_le_card_nsmul _ _ (nnz G : Int) fun e he => ?_).trans ?_
    · rw [Finset.mem_filter] at he
      have := hpos e.1 e.2 ((h.edge _ _).2 he.2)
      rw [abs_of_nonneg (by omega)]
      omega
    · rw [nsmul_eq_mul]
      rfl
  have h2 : (nnz G : Int) < 2 ^ 31 := by exact_mod_cast hn
  have h3 : (nnz G : Int) * nnz G ≤ 2 ^ 31 * 2 ^ 31 := mul_le_mul h2.le h2.le (by omega) (by omega)
  exact lt_of_le_of_lt (hle.trans h3) (by norm_num)

theorem worderEdges_cases (it : SetIter p) (A : Adj p) : worderEdges it A = .error .valueError ∨ worderEdges it A = .error .indexError ∨
    ∃ O i, worderEdges it A = .ok O ∧ Labels A i O ∧ ∀ a b, O a b ≠ -1 := by
  unfold worderEdges
  cases hd : wisDag it A with
  | false => exact .inl rfl
  | true =>
    right
    simp only [Bool.not_true, Bool.false_eq_true, if_false]
    cases ho : wtopologicalOrdering it A with
    | error err =>
      unfold wisDag at hd
      rw [ho] at hd
      cases hd
    | ok order =>
      simp only
      rcases orderEdgesLoop_labels order (p * p) 1 _ (le_refl _) (Labels.init A) (by
        refine le_trans (Finset.card_le_univ _) ?_
        simp) with h | ⟨O, i, h, hl, hno⟩
      · exact .inl h
      · exact .inr ⟨O, i, h, hl, hno⟩

/-- C154: if the absolute values of the entries add up to less than 2^63, the functions do what they do for integers of any size.  For
`dag_to_cpdag`, which adds up the labels of the edges as well, there have to be less than 2^31 edges. -/
theorem C154_no_overflow (it : SetIter p) (A : Adj p) (hb : absSum A < 2 ^ 63) :
    wtopologicalOrdering it A = topologicalOrdering it A ∧ wisDag it A = isDag it A ∧ worderEdges it A = orderEdges it A ∧
    (nnz A < 2 ^ 31 → wdagToCpdag it A = dagToCpdag it A) := by
  have h1 := wtopologicalOrdering_eq it hb
  have h2 := wisDag_eq it hb
  have h3 : worderEdges it A = orderEdges it A := by
    unfold worderEdges orderEdges
    rw [h1, h2]
    cases topologicalOrdering it A <;> rfl
  refine ⟨h1, h2, h3, fun hn => ?_⟩
  unfold wdagToCpdag dagToCpdag
  rw [← h3]
  rcases worderEdges_cases it A with h | h | ⟨O, i, h, hl, hno⟩
  · rw [h]
  · rw [h]
  · rw [h]
    simp only
    have : wlabelEdges it O = labelEdges it O := by
      unfold wlabelEdges labelEdges
      rw [wisDag_eq it (absSum_labels hl hno hn)]
    rw [this]
    cases labelEdges it O <;> rfl

/-- C154: hence for entries of absolute value at most `c` and `p * p * c < 2 ^ 63`, that is for less than 3037000500 nodes and entries 0 and 1. -/
theorem C154_small_entries (it : SetIter p) (A : Adj p) (c : Nat) (hc : ∀ i j, |A i j| ≤ c) (hp : p * p * c < 2 ^ 63) :
    wtopologicalOrdering it A = topologicalOrdering it A ∧ wisDag it A = isDag it A ∧ worderEdges it A = orderEdges it A := by
  have hb : absSum A < 2 ^ 63 := by
    have h1 : absSum A ≤ (p * p * c : Nat) := by
      unfold absSum
      refine (Finset.sum_le_sum fun i _ => Finset.sum_le_sum fun j _ => hc i j).trans ?_
      simp [mul_assoc]
    exact lt_of_le_of_lt h1 (by exact_mod_cast hp)
  obtain ⟨h1, h2, h3, -⟩ := C154_no_overflow it A hb
  exact ⟨h1, h2, h3⟩

/-- C154: every DAG passes, however large its weights are, and the list contains all nodes.  No node is repeated exactly when no node with parents
has weights that add up to a multiple of 2^64; then `dag_to_cpdag` returns the essential graph. -/
theorem C154_dag (it : SetIter p) (A : Adj p) (hac : Acyclic A) : wisDag it A = true ∧
    ∃ l, wtopologicalOrdering it A = .ok l ∧ (∀ v, v ∈ l) ∧ (l.Nodup ↔ ∀ v, (∃ u, Edge A u v) → ¬ (2 ^ 64 : Int) ∣ ∑ u, A u v) ∧
      ((∀ v, (∃ u, Edge A u v) → ¬ (2 ^ 64 : Int) ∣ ∑ u, A u v) → IsTopoOrder A l ∧
        ∃ C, wdagToCpdag it A = .ok C ∧ ∀ i j, (C i j = 1 ↔ ∃ H, Acyclic H ∧ MarkovEquiv A H ∧ Edge H i j) ∧ (C i j = 0 ∨ C i j = 1)) := by
  classical
  have key : ∀ (B : Adj p), Acyclic B → wisDag it B = true ∧ ∃ l, wtopologicalOrdering it B = .ok l ∧ (∀ v, v ∈ l) ∧
      (l.Nodup ↔ ∀ v, (∃ u, Edge B u v) → ¬ (2 ^ 64 : Int) ∣ ∑ u, B u v) := by
    intro B hB
    have hz : ∀ v, (∀ u, B u v = 0) → ZeroColumn64 B v := fun v h => by
      unfold ZeroColumn64
      rw [Finset.sum_eq_zero fun u _ => h u]
      exact dvd_zero _
    have hf := hB.freed hz
    obtain ⟨l, hl, h1, h2⟩ := wtopologicalOrdering_any it B
    have hs1 : (∑ i, ∑ j, if UndEdge B i j then B i j else 0) = 0 :=
      Finset.sum_eq_zero fun i _ => Finset.sum_eq_zero fun j _ => if_neg fun h => (hB.dir_iff.2 h.1).2 |> h.2
    have hs2 : (∑ i, ∑ j, if DirEdge B i j ∧ Freed B (ZeroColumn64 B) i then 0 else B i j) = 0 := by
      refine Finset.sum_eq_zero fun i _ => Finset.sum_eq_zero fun j _ => ?_
      split
      · rfl
      · rename_i h
        by_contra hc
        exact h ⟨hB.dir_iff.2 hc, hf i⟩
    have hw : wrap64 0 ≤ 0 := by decide
    rw [hs1, hs2, if_pos ⟨hw, hw⟩] at hl
    refine ⟨by unfold wisDag; rw [hl], l, hl, fun v => (h1 v).2 (hf v), ?_⟩
    rw [List.nodup_iff_count_le_one]
    constructor
    · intro hn v hex hs
      have h3 := hn v
      rw [h2 v, if_pos (show ZeroColumn64 B v from hs), if_pos ⟨hex.imp fun u hu => hB.dir_iff.2 hu, fun u _ => hf u⟩] at h3
      omega
    · intro hn v
      rw [h2 v]
      by_cases hs : ZeroColumn64 B v
      · rw [if_neg (c := _ ∧ _) (fun h => hn v (h.1.imp fun u hu => hu.1) hs)]
        split <;> omega
      · rw [if_neg hs]
        split <;> omega
  obtain ⟨hd, l, hl, hall, hnd⟩ := key A hac
  refine ⟨hd, l, hl, hall, hnd, fun hn => ?_⟩
  have hs := support_acyclic hac
  obtain ⟨hds, l', hl', -⟩ := C146_dag_accepted it (support A) hs
  have hll : l = l' := by
    have h' := topologicalOrdering_ok hl'
    have h : (topoLoop it (p * p + p) A (whereVec (fun j => decide (wrap64 (colSum A j) = 0))).reverse []).map Prod.snd = .ok l := by
      have h := hl
      unfold wtopologicalOrdering at h
      split at h
      · cases h
      · revert h
        cases topoLoop it (p * p + p) A (whereVec (fun j => decide (wrap64 (colSum A j) = 0))).reverse [] with
        | error e => intro h; cases h
        | ok r =>
          intro h
          dsimp only at h
          split at h
          · cases h
          · exact h
    have hs : (fun j => decide (wrap64 (colSum A j) = 0)) = fun j => decide (colSum (support A) j = 0) := by
      funext j
      rw [decide_eq_decide, wrap64_zero, colSum_eq_zero_iff (support_nonneg A)]
      simp only [support_eq]
      constructor
      · intro h u
        by_contra hc
        exact hn j ⟨u, hc⟩ h
      · intro h
        unfold colSum
        rw [Finset.sum_eq_zero fun u _ => h u]
        exact dvd_zero _
    rw [hs, topoLoop_pattern it _ A (support A) _ _ (fun i j => support_eq.symm), h'] at h
    injection h with h
    exact h.symm
  subst hll
  have hm := markovEquiv_support A
  obtain ⟨h1, h2⟩ := topologicalOrdering_spec it (support A) (support_nonneg A)
  obtain ⟨h3, h4, h5⟩ := h1 l hl'
  refine ⟨⟨h3, h4, fun i j hij => h5 i j (edge_support.2 hij)⟩, ?_⟩
  obtain ⟨C, hC, h⟩ := C17_essential_graph it (support A) (support_nonneg A) hs
  refine ⟨C, ?_, fun i j => ⟨?_, ?_⟩⟩
  · have ho : worderEdges it A = orderEdges it (support A) := by
      unfold worderEdges orderEdges
      rw [hd, hl, hds, hl']
      simp only [ne_eq, support_eq]
    have hdag : ∀ O, worderEdges it A = .ok O → wlabelEdges it O = labelEdges it O := by
      intro O hO
      rcases worderEdges_cases it A with h | h | ⟨O', i, h, hlab, hno⟩
      · rw [h] at hO; cases hO
      · rw [h] at hO; cases hO
      · rw [h] at hO
        cases hO
        have hOac : Acyclic O := fun v hv => hac v (Relation.TransGen.mono (fun a b hab => (hlab.edge a b).1 hab) _ _ hv)
        unfold wlabelEdges labelEdges
        rw [(key O hOac).1, (C146_dag_accepted it O hOac).1]
    rw [← hC]
    unfold wdagToCpdag dagToCpdag
    rw [← ho]
    cases hO : worderEdges it A with
    | error e => rfl
    | ok O =>
      simp only
      rw [hdag O hO]
      cases labelEdges it O <;> rfl
  · rw [(h i j).1]
    exact exists_congr fun H => and_congr_right fun _ => and_congr_left fun _ => ⟨hm.trans, hm.symm.trans⟩
  · rw [(h i j).1, (h i j).2]
    exact (em _).symm

/-- C154: a graph with a cycle and less than 2^31 edges does not get a CPDAG, however large its weights are. -/
theorem C154_cyclic (it : SetIter p) (A : Adj p) (hc : ¬ Acyclic A) (hn : nnz A < 2 ^ 31) :
    wdagToCpdag it A = .error .valueError ∨ wdagToCpdag it A = .error .indexError := by
  unfold wdagToCpdag
  rcases worderEdges_cases it A with h | h | ⟨O, i, h, hl, hno⟩
  · rw [h]; exact .inl rfl
  · rw [h]; exact .inr rfl
  · rw [h]
    simp only
    have : wlabelEdges it O = labelEdges it O := by
      unfold wlabelEdges labelEdges
      rw [wisDag_eq it (absSum_labels hl hno hn)]
    rw [this, labelEdges_cyclic it hc hl hno]
    exact .inl rfl

/-- A cycle of two nodes. -/
def twoCycle (a b : Int) : Adj 2 := ![![0, a], ![b, 0]]

/-- C154: `is_dag` accepts the cycle of two nodes with positive 64-bit weights exactly when the sum of the weights overflows. -/
theorem C154_overflow (it : SetIter 2) (a b : Int) (ha : 0 < a ∧ a < 2 ^ 63) (hb : 0 < b ∧ b < 2 ^ 63) :
    ¬ Acyclic (twoCycle a b) ∧ (wisDag it (twoCycle a b) = true ↔ 2 ^ 63 ≤ a + b) := by
  classical
  have e01 : twoCycle a b 0 1 = a := rfl
  have e10 : twoCycle a b 1 0 = b := rfl
  have e00 : twoCycle a b 0 0 = 0 := rfl
  have e11 : twoCycle a b 1 1 = 0 := rfl
  have h01 : Edge (twoCycle a b) 0 1 := by unfold Edge; rw [e01]; omega
  have h10 : Edge (twoCycle a b) 1 0 := by unfold Edge; rw [e10]; omega
  refine ⟨fun h => h 0 ((Relation.TransGen.single h01).tail h10), ?_⟩
  rw [C154_is_dag_exact]
  have s1 : (∑ i, ∑ j, if UndEdge (twoCycle a b) i j then twoCycle a b i j else 0) = a + b := by
    rw [Fin.sum_univ_two, Fin.sum_univ_two, Fin.sum_univ_two, if_pos (c := UndEdge (twoCycle a b) 0 1) ⟨h01, h10⟩,
      if_pos (c := UndEdge (twoCycle a b) 1 0) ⟨h10, h01⟩, e00, e11, e01, e10]
    simp
  have s2 : (∑ i, ∑ j, if DirEdge (twoCycle a b) i j ∧ Freed (twoCycle a b) (ZeroColumn64 (twoCycle a b)) i then 0 else twoCycle a b i j) = a + b := by
    rw [Fin.sum_univ_two, Fin.sum_univ_two, Fin.sum_univ_two, if_neg (c := DirEdge (twoCycle a b) 0 1 ∧ _) (fun h => h10 h.1.2),
      if_neg (c := DirEdge (twoCycle a b) 1 0 ∧ _) (fun h => h01 h.1.2), e00, e11, e01, e10]
    simp
  rw [s1, s2]
  unfold wrap64
  omega

/-- An example for `C154_overflow`. -/
example : (0 : Int) < 2 ^ 62 ∧ (2 : Int) ^ 62 < 2 ^ 63 ∧ (2 : Int) ^ 63 ≤ 2 ^ 62 + 2 ^ 62 := by norm_num

/-- An example for `C154_dag` in which the weights of the edges into a node add up to 2^64: a node occurs twice. -/
example (it : SetIter 4) (A : Adj 4) (hA : A = fun i j => if j = 3 then ![2 ^ 63 - 1, 2 ^ 63 - 1, 2, 0] i else 0) :
    ∃ l, wtopologicalOrdering it A = .ok l ∧ ¬ l.Nodup := by
  have hac : Acyclic A := acyclic_of_rank (fun v : Fin 4 => v.val) fun a b hab => by
    subst hA
    unfold Edge at hab
    revert a b
    decide
  obtain ⟨-, l, hl, -, h, -⟩ := C154_dag it A hac
  refine ⟨l, hl, fun hn => h.1 hn 3 ⟨0, ?_⟩ ?_⟩
  · subst hA
    unfold Edge
    decide
  · subst hA
    decide

end Verif
