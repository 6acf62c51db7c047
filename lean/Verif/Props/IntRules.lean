import Verif.Model.IntRules
import Verif.Props.IntNodes

/-!
# C159: the Meek rules and `chain_graph_IMEC` for nodes given as negative integers or outside the graph
-/

namespace Verif
open Spec
variable {p : Nat}

/-- C159: the Meek rules for integers that name nodes do what they do for these nodes. -/
theorem C159_rules (i j : Int) (a b : Fin p) (ha : NamesNode i a) (hb : NamesNode j b) (A : Adj p) :
    zrule1 i j A = .ok (rule1 a b A) ∧ zrule2 i j A = .ok (rule2 a b A) ∧ zrule3 i j A = .ok (rule3 a b A) ∧ zrule4 i j A = .ok (rule4 a b A) := by
  have h1 := nodeOf_iff.2 ha
  have h2 := nodeOf_iff.2 hb
  refine ⟨?_, ?_, ?_, ?_⟩
  · unfold zrule1 rule1 zpa zadj
    simp only [h1, h2]
    by_cases h : (pa a A).card > 0 <;> simp [h]
  · unfold zrule2 rule2 zpa zch
    simp only [h1, h2]
  · unfold zrule3 rule3 zpa zneighbors
    simp only [h1, h2]
  · unfold zrule4 rule4 zpa zneighbors zadj
    simp only [h1, h2]
    split
    · split <;> rfl
    · rfl

/-- C159: an integer that names no node raises `IndexError` in all the rules, except that `rule_1(i, j, A)` does not look at `j` if the node that `i` names
has no parents, and then says False. -/
theorem C159_rules_errors (i j : Int) (A : Adj p) :
    (¬ InRange p i ∨ ¬ InRange p j → zrule2 i j A = .error .indexError ∧ zrule3 i j A = .error .indexError ∧ zrule4 i j A = .error .indexError) ∧
    (¬ InRange p i → zrule1 i j A = .error .indexError) ∧
    (∀ a : Fin p, NamesNode i a → ¬ InRange p j →
      zrule1 i j A = if ∃ c, A c a ≠ 0 ∧ A a c = 0 then .error .indexError else .ok false) := by
  refine ⟨fun h => ?_, fun h => ?_, fun a ha hj => ?_⟩
  · unfold zrule2 zrule3 zrule4 zpa zneighbors zch
    by_cases hi : InRange p i
    · have hj := h.resolve_left (fun h => h hi)
      obtain ⟨a, ha, -⟩ := nodeOf_ok hi
      simp only [ha, nodeOf_error hj, and_self]
    · rcases Classical.em (InRange p j) with hj | hj
      · obtain ⟨b, hb, -⟩ := nodeOf_ok hj
        simp only [hb, nodeOf_error hi, and_self]
      · simp only [nodeOf_error hj, nodeOf_error hi, and_self]
  · unfold zrule1 zpa
    rw [nodeOf_error h]
  · unfold zrule1 zpa zadj
    rw [nodeOf_iff.2 ha, nodeOf_error hj]
    dsimp only
    have hp : (pa a A).card > 0 ↔ ∃ c, A c a ≠ 0 ∧ A a c = 0 := by
      rw [gt_iff_lt, Finset.card_pos]
      refine exists_congr fun c => ?_
      rw [mem_pa]
    by_cases h : ∃ c, A c a ≠ 0 ∧ A a c = 0
    · rw [if_pos (hp.2 h), if_pos h]
    · rw [if_neg (fun hc => h (hp.1 hc)), if_neg h]

/-- C159: `chain_graph_IMEC` for any integers does what it does for the named nodes, and raises `IndexError` if one names none, unless the graph is no
chain. -/
theorem C159_chain_imec (A : Adj p) (I : List Int) (hp : 0 < p) :
    (isChainGraph A = false → zchainGraphIMEC A I = .error .valueError) ∧
    (isChainGraph A = true → (∃ i ∈ I, ¬ InRange p i) → zchainGraphIMEC A I = .error .indexError) ∧
    ((∀ i ∈ I, InRange p i) → ∃ J : List (Fin p), (∀ k, k ∈ J ↔ ∃ i ∈ I, NamesNode i k) ∧ zchainGraphIMEC A I = chainGraphIMEC A J) := by
  refine ⟨fun h => ?_, fun h hI => ?_, fun hI => ?_⟩
  · unfold zchainGraphIMEC
    rw [h]
    rfl
  · unfold zchainGraphIMEC
    rw [h]
    obtain ⟨me, rest, hm⟩ : ∃ me rest, chainGraphMEC p = me :: rest := by
      rcases hc : chainGraphMEC p with _ | ⟨me, rest⟩
      · have := congrArg List.length hc
        simp [chainGraphMEC] at this
        omega
      · exact ⟨me, rest, rfl⟩
    rw [hm]
    simp only [Bool.not_true, Bool.false_eq_true, if_false]
    unfold zchainLoop
    rw [nodesOf_error hI]
  · obtain ⟨J, hJ, hk⟩ : ∃ J : List (Fin p), nodesOf p I = .ok J ∧ ∀ k, k ∈ J ↔ ∃ i ∈ I, NamesNode i k := by
      rcases exists_nodes hI with rfl | ⟨g, hg⟩
      · exact ⟨[], rfl, by simp⟩
      · refine ⟨_, nodesOf_map fun i hi => (hg i hi).1, fun k => ?_⟩
        rw [List.mem_map]
        exact ⟨fun ⟨i, hi, he⟩ => ⟨i, hi, he ▸ (hg i hi).2⟩, fun ⟨i, hi, he⟩ => ⟨i, hi, namesNode_unique (hg i hi).2 he⟩⟩
    refine ⟨J, hk, ?_⟩
    unfold zchainGraphIMEC chainGraphIMEC
    have hloop : ∀ l : List (Adj p), zchainLoop A I l = .ok (l.filter fun me => decide (∀ k, ∀ i ∈ J, me k i = A k i)) := by
      intro l
      induction l with
      | nil => rfl
      | cons me l ih =>
        unfold zchainLoop
        rw [hJ, ih, List.filter_cons]
        simp only [decide_eq_true_eq]
    rw [hloop]

/-- An example for `C159_rules`: in `0 -> 1 - 2` rule 1 orients the edge from -2 to -1. -/
example : zrule1 (-2) (-1) (![![0, 1, 0], ![0, 0, 1], ![0, 1, 0]] : Adj 3) = .ok true := by
  rw [(C159_rules (-2) (-1) 1 2 (.inr rfl) (.inr rfl) _).1]
  decide +kernel

/-- An example for `C159_rules_errors`: in `0 -> 1` the first rule says False for the nodes 0 and 5, and raises an error for 1 and 5. -/
example : zrule1 0 5 (![![0, 1], ![0, 0]] : Adj 2) = .ok false ∧ zrule1 1 5 (![![0, 1], ![0, 0]] : Adj 2) = .error .indexError := by
  have h := fun i => (C159_rules_errors i 5 (![![0, 1], ![0, 0]] : Adj 2)).2.2
  refine ⟨?_, ?_⟩
  · rw [h 0 0 (.inl rfl) (by unfold InRange; decide), if_neg (by decide)]
  · rw [h 1 1 (.inl rfl) (by unfold InRange; decide), if_pos (by decide)]

/-- An example for `C159_chain_imec`: in the chain `0 -> 1 -> 2` the targets -3 and 0 lead to the same members, and 3 is
refused. -/
example : (∃ J : List (Fin 3), (∀ k, k ∈ J ↔ k = 0) ∧ zchainGraphIMEC (chainGraph 3) [-3] = chainGraphIMEC (chainGraph 3) J) ∧
    zchainGraphIMEC (chainGraph 3) [3] = .error .indexError := by
  have h := fun I => C159_chain_imec (chainGraph 3) I (by decide)
  constructor
  · obtain ⟨J, h1, h2⟩ := (h [-3]).2.2 (by unfold InRange; decide)
    refine ⟨J, fun k => ?_, h2⟩
    rw [h1]
    unfold NamesNode
    revert k
    decide
  · exact (h [3]).2.1 (by simp [isChainGraph]) (by unfold InRange; decide)

end Verif
