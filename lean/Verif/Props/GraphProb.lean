import Verif.Props.Gen
import Verif.Spec.Sparsest
import Verif.Proof.Sparsest
import Mathlib.Probability.Independence.Basic

/-!
# C118: the distribution of random graphs

`_dag_avg_deg` with independent uniform draws and a uniform permutation: the probability of every graph.  (C82 is about the average degree.)
-/

namespace Verif

open Spec MeasureTheory

variable {p l e : Nat}

/-! ### Specification -/

/-- The distribution of `np.random.uniform(size=(p, p))`: independent, uniform on the unit interval. -/
noncomputable def Spec.unifDraws (p : Nat) : Measure (Fin p × Fin p → ℝ) := Measure.pi (fun _ => (volume : Measure ℝ).restrict (Set.Icc 0 1))

/-- The probability of an event that depends on the uniform draws and the permutation: all permutations are equally likely, and independent of
the uniform draws. -/
noncomputable def Spec.graphProb (S : (Fin p × Fin p → ℝ) → Equiv.Perm (Fin p) → Prop) : ENNReal :=
  (∑ π : Equiv.Perm (Fin p), unifDraws p {U | S U π}) / (p.factorial : ENNReal)

/-- The probability `k / (p - 1)`, or the closest number in the unit interval. -/
noncomputable def Spec.edgeProb (p : Nat) (k : ℝ) : ENNReal := ENNReal.ofReal (max 0 (min 1 (k / ((p : ℝ) - 1))))

/-- The draws of `_dag_avg_deg` with the default weights. -/
def Spec.drawsOf (U : Fin p × Fin p → ℝ) (π : Equiv.Perm (Fin p)) : GraphDraws p := ⟨fun i j => U (i, j), fun _ _ => 1, π⟩

/-- `_dag_avg_deg` returns the matrix `W`. -/
def Spec.Returns (k : ℝ) (U : Fin p × Fin p → ℝ) (π : Equiv.Perm (Fin p)) (W : Matrix (Fin p) (Fin p) ℝ) : Prop :=
  ∃ order, dagAvgDeg k (drawsOf U π) = .ok (W, order)

/-! ### Lemmas -/

theorem returns_iff (hp : p ≠ 1) (k : ℝ) (U : Fin p × Fin p → ℝ) (π : Equiv.Perm (Fin p)) (W : Matrix (Fin p) (Fin p) ℝ) :
    Returns k U π W ↔ ∀ i j, W i j = open Classical in if π i < π j ∧ U (π i, π j) ≤ k / ((p : ℝ) - 1) then 1 else 0 := by
  classical
  unfold Returns dagAvgDeg
  rw [if_neg hp]
  simp only [Except.ok.injEq, Prod.mk.injEq, exists_and_left, exists_eq', and_true]
  constructor
  · rintro rfl i j
    simp only [Matrix.of_apply, upperGraph, drawsOf, mul_one]
    by_cases h1 : π i < π j <;> by_cases h2 : U (π i, π j) ≤ k / ((p : ℝ) - 1) <;> simp [h1, h2]
  · intro h
    ext i j
    rw [h i j]
    simp only [Matrix.of_apply, upperGraph, drawsOf, mul_one]
    by_cases h1 : π i < π j <;> by_cases h2 : U (π i, π j) ≤ k / ((p : ℝ) - 1) <;> simp [h1, h2]

instance : IsProbabilityMeasure ((volume : Measure ℝ).restrict (Set.Icc 0 1)) := ⟨by simp⟩

instance (p : Nat) : IsProbabilityMeasure (unifDraws p) := by
  unfold unifDraws
  infer_instance

theorem unif_Iic (x : ℝ) : (volume : Measure ℝ).restrict (Set.Icc 0 1) (Set.Iic x) = ENNReal.ofReal (max 0 (min 1 x)) := by
  rw [Measure.restrict_apply measurableSet_Iic]
  have : Set.Iic x ∩ Set.Icc 0 1 = Set.Icc 0 (min 1 x) := by
    ext y
    simp only [Set.mem_inter_iff, Set.mem_Iic, Set.mem_Icc, le_min_iff]
    tauto
  rw [this, Real.volume_Icc, sub_zero]
  rcases le_total 0 (min 1 x) with h | h
  · rw [max_eq_right h]
  · rw [max_eq_left h, ENNReal.ofReal_of_nonpos h, ENNReal.ofReal_zero]

theorem unif_Ioi (x : ℝ) : (volume : Measure ℝ).restrict (Set.Icc 0 1) (Set.Ioi x) = 1 - ENNReal.ofReal (max 0 (min 1 x)) := by
  rw [← Set.compl_Iic, prob_compl_eq_one_sub measurableSet_Iic, unif_Iic]

theorem card_lt_pairs (p : Nat) : (Finset.univ.filter (fun q : Fin p × Fin p => q.1 < q.2)).card = p.choose 2 := by
  rw [Finset.card_filter, Fintype.sum_prod_type_right]
  simp only [← Finset.card_filter]
  have : ∀ b : Fin p, (Finset.univ.filter (fun a : Fin p => a < b)).card = b.val := by
    intro b
    have : Finset.univ.filter (fun a : Fin p => a < b) = Finset.Iio b := by
      ext a
      simp
    rw [this, Fin.card_Iio]
  simp only [this]
  rw [Fin.sum_univ_eq_sum_range (fun i => i) p, Finset.sum_range_id, Nat.choose_two_right]

theorem edgeCount_relabel {G : Adj p} {π : Equiv.Perm (Fin p)} (hπ : ∀ i j, Edge G i j → π i < π j) :
    (Finset.univ.filter (fun q : Fin p × Fin p => q.1 < q.2 ∧ Edge G (π.symm q.1) (π.symm q.2))).card = edgeCount G := by
  classical
  unfold edgeCount
  refine Finset.card_bij (fun q _ => (π.symm q.1, π.symm q.2)) ?_ ?_ ?_
  · intro q hq
    simp only [Finset.mem_filter, Finset.mem_univ, true_and] at hq ⊢
    exact hq.2
  · intro q _ q' _ h
    simp only [Prod.mk.injEq, EmbeddingLike.apply_eq_iff_eq] at h
    exact Prod.ext h.1 h.2
  · intro q hq
    simp only [Finset.mem_filter, Finset.mem_univ, true_and] at hq
    exact ⟨(π q.1, π q.2), by simpa using ⟨hπ _ _ hq, hq⟩, by simp⟩

theorem edgeCount_le {G : Adj p} {π : Equiv.Perm (Fin p)} (hπ : ∀ i j, Edge G i j → π i < π j) : edgeCount G ≤ p.choose 2 := by
  classical
  rw [← edgeCount_relabel hπ, ← card_lt_pairs]
  refine Finset.card_le_card (fun q hq => ?_)
  simp only [Finset.mem_filter, Finset.mem_univ, true_and] at hq ⊢
  exact hq.1

/-- The event that a graph is returned, for a given permutation. -/
theorem event_measure (hp : p ≠ 1) (k : ℝ) (G : Adj p) (hG : ZeroOne G) (π : Equiv.Perm (Fin p)) :
    unifDraws p {U | Returns k U π (Matrix.of (fun i j => (G i j : ℝ)))} = open Classical in
      if ∀ i j, Edge G i j → π i < π j then edgeProb p k ^ edgeCount G * (1 - edgeProb p k) ^ (p.choose 2 - edgeCount G) else 0 := by
  classical
  split_ifs with hπ
  · have hset : {U | Returns k U π (Matrix.of (fun i j => (G i j : ℝ)))} = Set.pi Set.univ (fun q : Fin p × Fin p =>
        if q.1 < q.2 then (if Edge G (π.symm q.1) (π.symm q.2) then Set.Iic (k / ((p : ℝ) - 1)) else Set.Ioi (k / ((p : ℝ) - 1))) else Set.univ) := by
      ext U
      rw [Set.mem_ofPred_eq, returns_iff hp, Set.mem_univ_pi]
      constructor
      · intro h q
        by_cases hq : q.1 < q.2
        · have h1 := h (π.symm q.1) (π.symm q.2)
          simp only [Equiv.apply_symm_apply, Matrix.of_apply, hq, true_and] at h1
          rw [if_pos hq]
          by_cases hE : Edge G (π.symm q.1) (π.symm q.2)
          · rw [if_pos hE, Set.mem_Iic]
            by_contra hc
            rw [if_neg hc] at h1
            exact hE (by exact_mod_cast h1)
          · rw [if_neg hE, Set.mem_Ioi]
            by_contra hc
            rw [if_pos (not_lt.1 hc)] at h1
            refine hE (fun h0 => ?_)
            rw [h0] at h1
            norm_num at h1
        · rw [if_neg hq]
          trivial
      · intro h i j
        have h1 := h (π i, π j)
        simp only [Equiv.symm_apply_apply] at h1
        rw [Matrix.of_apply]
        by_cases hE : Edge G i j
        · have hlt := hπ i j hE
          rw [if_pos hlt, if_pos hE, Set.mem_Iic] at h1
          rw [if_pos ⟨hlt, h1⟩]
          rcases hG i j with h2 | h2
          · exact absurd h2 hE
          · rw [h2]
            norm_num
        · have h0 : G i j = 0 := not_not.1 hE
          by_cases hlt : π i < π j
          · rw [if_pos hlt, if_neg hE, Set.mem_Ioi] at h1
            rw [if_neg (fun hc => absurd hc.2 (not_le.2 h1)), h0]
            norm_num
          · rw [if_neg (fun hc => hlt hc.1), h0]
            norm_num
    rw [hset, unifDraws, Measure.pi_pi]
    have hval : ∀ q : Fin p × Fin p, ((volume : Measure ℝ).restrict (Set.Icc 0 1)) (if q.1 < q.2 then
        (if Edge G (π.symm q.1) (π.symm q.2) then Set.Iic (k / ((p : ℝ) - 1)) else Set.Ioi (k / ((p : ℝ) - 1))) else Set.univ) =
        (if q.1 < q.2 ∧ Edge G (π.symm q.1) (π.symm q.2) then edgeProb p k else 1) *
          (if q.1 < q.2 ∧ ¬ Edge G (π.symm q.1) (π.symm q.2) then 1 - edgeProb p k else 1) := by
      intro q
      by_cases hq : q.1 < q.2
      · by_cases hE : Edge G (π.symm q.1) (π.symm q.2)
        · simp only [hq, hE, if_true, true_and, not_true_eq_false, if_false, mul_one]
          exact unif_Iic _
        · simp only [hq, hE, if_true, true_and, not_false_eq_true, if_false, one_mul]
          exact unif_Ioi _
      · simp only [hq, if_false, false_and, mul_one]
        exact measure_univ
    rw [Finset.prod_congr rfl (fun q _ => hval q), Finset.prod_mul_distrib]
    rw [Finset.prod_ite, Finset.prod_ite]
    simp only [Finset.prod_const, mul_one, one_pow]
    rw [edgeCount_relabel hπ]
    congr 2
    have h1 := Finset.card_filter_add_card_filter_not (s := Finset.univ.filter (fun q : Fin p × Fin p => q.1 < q.2))
      (fun q => Edge G (π.symm q.1) (π.symm q.2))
    rw [card_lt_pairs, Finset.filter_filter, Finset.filter_filter, edgeCount_relabel hπ] at h1
    omega
  · have hset : {U | Returns k U π (Matrix.of (fun i j => (G i j : ℝ)))} = ∅ := by
      rw [Set.eq_empty_iff_forall_notMem]
      intro U hU
      rw [Set.mem_ofPred_eq, returns_iff hp] at hU
      refine hπ (fun i j hE => ?_)
      by_contra hc
      have := hU i j
      rw [Matrix.of_apply, if_neg (fun h => hc h.1)] at this
      exact hE (by exact_mod_cast this)
    rw [hset, measure_empty]

/-! ### Theorems -/

/-- C118: the probability that `_dag_avg_deg` returns the graph `G`: the proportion of orderings compatible with `G`, times the probability
that its pairs are joined and the others are not. -/
theorem C118_graph_probability (hp : p ≠ 1) (k : ℝ) (G : Adj p) (hG : ZeroOne G) :
    graphProb (fun U π => Returns k U π (Matrix.of (fun i j => (G i j : ℝ)))) = open Classical in
      ((Finset.univ.filter (fun π : Equiv.Perm (Fin p) => ∀ i j, Edge G i j → π i < π j)).card : ENNReal) / (p.factorial : ENNReal) *
        (edgeProb p k ^ edgeCount G * (1 - edgeProb p k) ^ (p.choose 2 - edgeCount G)) := by
  classical
  unfold graphProb
  simp only [event_measure hp k G hG]
  rw [← Finset.sum_filter, Finset.sum_const, nsmul_eq_mul, ENNReal.div_eq_inv_mul, ENNReal.div_eq_inv_mul]
  ring

/-- C118: every DAG is returned with positive probability if `0 < k < p - 1`, and no graph with a cycle is. -/
theorem C118_support (hp : 2 ≤ p) (k : ℝ) (hk : 0 < k) (hk' : k < (p : ℝ) - 1) (G : Adj p) (hG : ZeroOne G) :
    0 < graphProb (fun U π => Returns k U π (Matrix.of (fun i j => (G i j : ℝ)))) ↔ Acyclic G := by
  classical
  rw [C118_graph_probability (by omega) k G hG]
  have hpos : (0 : ℝ) < (p : ℝ) - 1 := by
    have : (2 : ℝ) ≤ p := by exact_mod_cast hp
    linarith
  have h1 : 0 < k / ((p : ℝ) - 1) := div_pos hk hpos
  have h2 : k / ((p : ℝ) - 1) < 1 := (div_lt_one hpos).2 hk'
  have hq : edgeProb p k ≠ 0 := by
    unfold edgeProb
    rw [min_eq_right h2.le, max_eq_right h1.le]
    exact (ENNReal.ofReal_pos.2 h1).ne'
  have hq' : 1 - edgeProb p k ≠ 0 := by
    unfold edgeProb
    rw [min_eq_right h2.le, max_eq_right h1.le]
    rw [ne_eq, tsub_eq_zero_iff_le, not_le, ENNReal.ofReal_lt_one]
    exact h2
  rw [pos_iff_ne_zero, mul_ne_zero_iff, ENNReal.div_ne_zero, and_iff_left (mul_ne_zero (pow_ne_zero _ hq) (pow_ne_zero _ hq')),
    and_iff_left (ENNReal.natCast_ne_top _), Nat.cast_ne_zero, Finset.card_ne_zero]
  constructor
  · rintro ⟨π, hπ⟩
    simp only [Finset.mem_filter, Finset.mem_univ, true_and] at hπ
    intro i hi
    have key : ∀ j, Relation.TransGen (Edge G) i j → π i < π j := by
      intro j h
      induction h with
      | single h => exact hπ _ _ h
      | tail _ h ih => exact ih.trans (hπ _ _ h)
    exact lt_irrefl _ (key i hi)
  · intro hac
    obtain ⟨f, hf⟩ := exists_rank_of_acyclic hac
    -- positions in a list sorted by rank
    let L := (List.finRange p).insertionSort (fun a b => f a ≤ f b)
    have hperm : L.Perm (List.finRange p) := List.perm_insertionSort _ _
    have hlen : L.length = p := by rw [hperm.length_eq, List.length_finRange]
    have hnd : L.Nodup := hperm.nodup_iff.2 (List.nodup_finRange p)
    have hmem : ∀ i, i ∈ L := fun i => hperm.mem_iff.2 (List.mem_finRange i)
    have hsort : L.Pairwise (fun a b => f a ≤ f b) := by
      have : Std.Total (fun a b : Fin p => f a ≤ f b) := ⟨fun a b => le_total _ _⟩
      have : IsTrans (Fin p) (fun a b : Fin p => f a ≤ f b) := ⟨fun _ _ _ => le_trans⟩
      exact List.pairwise_insertionSort _ _
    have hlt : ∀ i, L.idxOf i < p := fun i => (List.idxOf_lt_length_of_mem (hmem i)).trans_le hlen.le
    have hinj : Function.Injective (fun i : Fin p => (⟨L.idxOf i, hlt i⟩ : Fin p)) := by
      intro a b hab
      simp only [Fin.mk.injEq] at hab
      exact (List.idxOf_inj (hmem a)).1 hab
    refine ⟨Equiv.ofBijective _ (Finite.injective_iff_bijective.1 hinj), ?_⟩
    simp only [Finset.mem_filter, Finset.mem_univ, true_and, Equiv.ofBijective_apply, Fin.mk_lt_mk]
    intro i j hij
    by_contra hc
    push Not at hc
    have hne : L.idxOf j ≠ L.idxOf i := by
      intro h
      have := (List.idxOf_inj (hmem j)).1 h
      rw [this] at hij
      exact hac i (Relation.TransGen.single hij)
    have h3 := List.pairwise_iff_getElem.1 hsort (L.idxOf j) (L.idxOf i) (by rw [hlen]; exact hlt j) (by rw [hlen]; exact hlt i) (by omega)
    rw [List.getElem_idxOf, List.getElem_idxOf] at h3
    exact absurd (hf i j hij) (not_lt.2 h3)

theorem joined_measure (hp : p ≠ 1) (k : ℝ) (i j : Fin p) (π : Equiv.Perm (Fin p)) :
    unifDraws p {U | ∃ W, Returns k U π W ∧ W i j ≠ 0} = if π i < π j then edgeProb p k else 0 := by
  classical
  have hset : {U : Fin p × Fin p → ℝ | ∃ W, Returns k U π W ∧ W i j ≠ 0} =
      {U | π i < π j ∧ U (π i, π j) ≤ k / ((p : ℝ) - 1)} := by
    ext U
    simp only [Set.mem_ofPred_eq]
    constructor
    · rintro ⟨W, hW, hne⟩
      rw [returns_iff hp] at hW
      by_contra hc
      exact hne (by rw [hW i j, if_neg hc])
    · intro h
      exact ⟨Matrix.of (fun i j => if π i < π j ∧ U (π i, π j) ≤ k / ((p : ℝ) - 1) then 1 else 0), (returns_iff hp k U π _).2 (fun _ _ => rfl), by
        rw [Matrix.of_apply, if_pos h]
        exact one_ne_zero⟩
  rw [hset]
  split_ifs with h
  · simp only [h, true_and]
    have hmp := measurePreserving_eval (fun _ : Fin p × Fin p => (volume : Measure ℝ).restrict (Set.Icc 0 1)) (π i, π j)
    have := hmp.measure_preimage (s := Set.Iic (k / ((p : ℝ) - 1))) measurableSet_Iic.nullMeasurableSet
    rw [unif_Iic] at this
    exact this
  · simp [h]

theorem card_perm_lt {i j : Fin p} (hij : i ≠ j) :
    2 * (Finset.univ.filter (fun π : Equiv.Perm (Fin p) => π i < π j)).card = p.factorial := by
  have h1 := Finset.card_filter_add_card_filter_not (s := (Finset.univ : Finset (Equiv.Perm (Fin p)))) (fun π => π i < π j)
  rw [Finset.card_univ, Fintype.card_perm, Fintype.card_fin] at h1
  have h2 : (Finset.univ.filter (fun π : Equiv.Perm (Fin p) => ¬ π i < π j)).card =
      (Finset.univ.filter (fun π : Equiv.Perm (Fin p) => π i < π j)).card := by
    refine Finset.card_bij (fun π _ => (Equiv.swap i j).trans π) ?_ ?_ ?_
    · intro π hπ
      simp only [Finset.mem_filter, Finset.mem_univ, true_and, Equiv.trans_apply, Equiv.swap_apply_left, Equiv.swap_apply_right] at hπ ⊢
      exact lt_of_le_of_ne (not_lt.1 hπ) (fun h => hij (π.injective h).symm)
    · intro π _ π' _ h
      ext x
      have := congrArg (fun σ : Equiv.Perm (Fin p) => σ (Equiv.swap i j x)) h
      simpa using congrArg Fin.val this
    · intro π hπ
      refine ⟨(Equiv.swap i j).trans π, ?_, ?_⟩
      · simp only [Finset.mem_filter, Finset.mem_univ, true_and, Equiv.trans_apply, Equiv.swap_apply_left, Equiv.swap_apply_right] at hπ ⊢
        exact not_lt.2 hπ.le
      · ext x
        simp
  omega

/-- C118: the edge `i → j` is present with half the probability that the pair is joined: both directions are equally likely. -/
theorem C118_edge_probability (hp : p ≠ 1) (k : ℝ) (i j : Fin p) (hij : i ≠ j) :
    graphProb (fun U π => ∃ W, Returns k U π W ∧ W i j ≠ 0) = edgeProb p k / 2 := by
  unfold graphProb
  simp only [joined_measure hp]
  rw [← Finset.sum_filter, Finset.sum_const, nsmul_eq_mul]
  have h := card_perm_lt hij
  have h0 : ((Finset.univ.filter (fun π : Equiv.Perm (Fin p) => π i < π j)).card : ENNReal) ≠ 0 := by
    rw [Nat.cast_ne_zero]
    intro h1
    rw [h1] at h
    exact absurd h.symm (Nat.factorial_ne_zero p)
  rw [← h]
  push_cast
  rw [mul_comm (2 : ENNReal), ENNReal.mul_div_mul_left _ _ h0 (ENNReal.natCast_ne_top _)]

/-- C118: the graph of `random_graph_model` with valid targets has the same distribution. -/
theorem C118_random_model (it : SetIter p) (hp : p ≠ 1) (k : ℝ) (I : Finset Int) (hI : ValidTargets p I) (sparse obs : Bool)
    (draws : Int → Draws p l e) (rs : Int) (G : Adj p) (hG : ZeroOne G) :
    graphProb (fun U π => ∃ m, randomGraphModel it k I sparse obs (fun _ => drawsOf U π) draws rs = .ok m ∧ m.A = G) = open Classical in
      ((Finset.univ.filter (fun π : Equiv.Perm (Fin p) => ∀ i j, Edge G i j → π i < π j)).card : ENNReal) / (p.factorial : ENNReal) *
        (edgeProb p k ^ edgeCount G * (1 - edgeProb p k) ^ (p.choose 2 - edgeCount G)) := by
  classical
  rw [← C118_graph_probability hp k G hG]
  congr 1
  funext U π
  obtain ⟨m, hm, -, W, order, hW, hA⟩ := (C65_random_model it hp k I sparse obs (fun _ => drawsOf U π) (fun _ _ _ => rfl) draws rs).2 hI
  refine propext ⟨?_, ?_⟩
  · rintro ⟨m', hm', rfl⟩
    rw [hm] at hm'
    obtain rfl := Except.ok.inj hm'
    exact ⟨order, by rw [hW]; congr 2; ext i j; exact (hA i j).symm⟩
  · rintro ⟨order', hW'⟩
    rw [hW] at hW'
    have h1 := (Prod.mk.inj (Except.ok.inj hW')).1
    refine ⟨m, hm, ?_⟩
    funext i j
    have h2 := hA i j
    rw [h1, Matrix.of_apply] at h2
    exact_mod_cast h2

/-! ### The hypotheses are met -/

theorem edgeProb_three : edgeProb 3 1 = 1 / 2 := by
  unfold edgeProb
  rw [show max (0 : ℝ) (min 1 (1 / (((3 : Nat) : ℝ) - 1))) = 1 / 2 by norm_num, ENNReal.ofReal_div_of_pos (by norm_num)]
  simp

theorem half_compl : (1 : ENNReal) - 1 / 2 = 1 / 2 := by
  rw [one_div, ENNReal.one_sub_inv_two]

/-- With three nodes and `k = 1`, the collider `0 → 2 ← 1` is twice as likely as the chain `0 → 1 → 2`, although both have two edges: graphs with
equally many edges are not equally likely. -/
theorem C118_not_uniform :
    graphProb (p := 3) (fun U π => Returns 1 U π (Matrix.of (fun i j => ((![![0, 0, 1], ![0, 0, 1], ![0, 0, 0]] : Adj 3) i j : ℝ)))) =
      2 * graphProb (p := 3) (fun U π => Returns 1 U π (Matrix.of (fun i j => ((![![0, 1, 0], ![0, 0, 1], ![0, 0, 0]] : Adj 3) i j : ℝ)))) ∧
    0 < graphProb (p := 3) (fun U π => Returns 1 U π (Matrix.of (fun i j => ((![![0, 1, 0], ![0, 0, 1], ![0, 0, 0]] : Adj 3) i j : ℝ)))) := by
  classical
  refine ⟨?_, (C118_support (by norm_num) 1 one_pos (by norm_num) _ (by unfold ZeroOne; decide)).2 ?_⟩
  · rw [C118_graph_probability (by norm_num) 1 _ (by unfold ZeroOne; decide), C118_graph_probability (by norm_num) 1 _ (by unfold ZeroOne; decide)]
    have e1 : edgeCount (![![0, 0, 1], ![0, 0, 1], ![0, 0, 0]] : Adj 3) = 2 := by
      unfold edgeCount
      rw [Finset.filter_congr_decidable]
      decide +kernel
    have e2 : edgeCount (![![0, 1, 0], ![0, 0, 1], ![0, 0, 0]] : Adj 3) = 2 := by
      unfold edgeCount
      rw [Finset.filter_congr_decidable]
      decide +kernel
    have c1 : (Finset.univ.filter (fun π : Equiv.Perm (Fin 3) =>
        ∀ i j, Edge (![![0, 0, 1], ![0, 0, 1], ![0, 0, 0]] : Adj 3) i j → π i < π j)).card = 2 := by
      rw [Finset.filter_congr_decidable]
      decide +kernel
    have c2 : (Finset.univ.filter (fun π : Equiv.Perm (Fin 3) =>
        ∀ i j, Edge (![![0, 1, 0], ![0, 0, 1], ![0, 0, 0]] : Adj 3) i j → π i < π j)).card = 1 := by
      rw [Finset.filter_congr_decidable]
      decide +kernel
    rw [e1, e2]
    have d1 := congrArg (fun n : Nat => (n : ENNReal)) c1
    have d2 := congrArg (fun n : Nat => (n : ENNReal)) c2
    rw [d1, d2, ENNReal.div_eq_inv_mul, ENNReal.div_eq_inv_mul]
    push_cast
    ring
  · refine acyclic_of_rank (fun i => i.val) ?_
    decide

/-- With three nodes and `k = 1` the edge `0 → 1` has probability a quarter. -/
example : graphProb (p := 3) (fun U π => ∃ W, Returns 1 U π W ∧ W 0 1 ≠ 0) = 1 / 2 / 2 := by
  rw [C118_edge_probability (by norm_num) 1 0 1 (by decide), edgeProb_three]

/-- The empty graph on three nodes has probability an eighth. -/
example : graphProb (p := 3) (fun U π => Returns 1 U π (Matrix.of (fun i j => ((fun _ _ => 0 : Adj 3) i j : ℝ)))) = (1 / 2) ^ 3 := by
  classical
  rw [C118_graph_probability (by norm_num) 1 _ (fun _ _ => Or.inl rfl), edgeProb_three, half_compl]
  have e : edgeCount (fun _ _ => 0 : Adj 3) = 0 := by
    unfold edgeCount
    simp [Edge]
  have hT : Finset.univ.filter (fun π : Equiv.Perm (Fin 3) => ∀ i j, Edge (fun _ _ => 0 : Adj 3) i j → π i < π j) = Finset.univ :=
    Finset.filter_true_of_mem (fun π _ i j h => absurd rfl h)
  rw [e, hT, Finset.card_univ, Fintype.card_perm, Fintype.card_fin, ENNReal.div_self (by exact_mod_cast Nat.factorial_ne_zero 3) (ENNReal.natCast_ne_top _)]
  simp [Nat.choose]

end Verif
