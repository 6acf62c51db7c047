import Verif.Props.SignedPdag
import Verif.Props.SignedModel
import Verif.Props.SignedCandidates

/-!
# C153: graphs with cycles never get a class, whatever the signs of their weights

`is_dag` accepts some graphs with cycles (C146, C152).
-/

namespace Verif
open Spec
variable {p e : Nat}

theorem sortHead_mem {L order : List (Fin p)} {y : Fin p} (h : sortHead L order = .ok y) : y ∈ L := by
  unfold sortHead sortBy at h
  split at h
  · cases h
  · cases h
  · rename_i l hl
    injection h with h
    split at hl
    · cases hl
    · injection hl with hl
      have h1 : y ∈ (pySorted pairLe (L.map fun l => (posAssign order 0 (fun _ => 0) l, l))).map Prod.snd := by
        rw [hl, h]
        exact List.mem_cons_self
      obtain ⟨a, ha, rfl⟩ := List.mem_map.1 h1
      unfold pySorted at ha
      rw [List.mem_insertionSort] at ha
      obtain ⟨b, hb, rfl⟩ := List.mem_map.1 ha
      exact hb

theorem sortHead_error {L order : List (Fin p)} {err : Err} (h : sortHead L order = .error err) : err = .indexError := by
  unfold sortHead sortBy at h
  split at h
  · rename_i hl
    split at hl
    · cases hl
      cases h
      rfl
    · cases hl
  · cases h
    rfl
  · cases h

theorem orderEdgesLoop_labels {G : Adj p} (order : List (Fin p)) (n : Nat) (i : Int) (O : Adj p) (hi : 1 ≤ i) (h : Labels G i O)
    (hn : (Finset.univ.filter (fun e : Fin p × Fin p => O e.1 e.2 = -1)).card ≤ n) :
    orderEdgesLoop order n i O = .error .indexError ∨ ∃ O' i', orderEdgesLoop order n i O = .ok O' ∧ Labels G i' O' ∧ ∀ a b, O' a b ≠ -1 := by
  induction n generalizing i O with
  | zero =>
    rw [Nat.le_zero, Finset.card_eq_zero, Finset.filter_eq_empty_iff] at hn
    have hno : ∀ a b, O a b ≠ -1 := fun a b => hn (Finset.mem_univ (a, b))
    refine .inr ⟨O, i, ?_, h, hno⟩
    rw [orderEdgesLoop, if_neg]
    rintro ⟨a, b, hab⟩
    exact hno a b hab
  | succ n ih =>
    by_cases hex : ∃ a b, O a b = -1
    · rw [orderEdgesLoop, if_pos hex]
      cases hne : nextEdge order O with
      | error err =>
        left
        have : err = .indexError := by
          unfold nextEdge at hne
          split at hne
          · rename_i h1
            cases hne
            exact sortHead_error h1
          · split at hne
            · rename_i h1
              cases hne
              exact sortHead_error h1
            · cases hne
        rw [this]
      | ok r =>
        obtain ⟨x, y⟩ := r
        have hxy : O x y = -1 := by
          unfold nextEdge at hne
          split at hne
          · cases hne
          · split at hne
            · cases hne
            · rename_i h1
              cases hne
              have := sortHead_mem h1
              rw [mem_whereVec] at this
              simpa using this
        dsimp only
        refine ih (i + 1) _ (by omega) (h.step hi hxy) ?_
        have := unlabelled_lt hi hxy
        omega
    · refine .inr ⟨O, i, ?_, h, fun a b hab => hex ⟨a, b, hab⟩⟩
      rw [orderEdgesLoop, if_neg hex]

theorem labelEdges_cyclic (it : SetIter p) {G O : Adj p} {i : Int} (hc : ¬ Acyclic G) (h : Labels G i O) (hno : ∀ a b, O a b ≠ -1) :
    labelEdges it O = .error .valueError := by
  have hnn : Nonneg O := by
    intro a b
    by_cases h0 : O a b = 0
    · rw [h0]
    · have := (h.rng a b h0).resolve_left (hno a b)
      omega
  have : isDag it O = false := by
    rw [← Bool.not_eq_true, isDag_iff it hnn]
    intro hac
    refine hc fun v hv => hac v (Relation.TransGen.mono (fun a b hab => (h.edge a b).2 hab) _ _ hv)
  unfold labelEdges
  rw [this]
  rfl

/-- C153: for a graph with a cycle, whatever the signs of the weights and whether or not `is_dag` accepts it, `dag_to_cpdag`, `dag_to_icpdag`, `mec` and
`imec` raise a `ValueError` or an `IndexError`. -/
theorem C153_cyclic (it : SetIter p) (A : Adj p) (hc : ¬ Acyclic A) :
    (dagToCpdag it A = .error .valueError ∨ dagToCpdag it A = .error .indexError) ∧
    (∀ I, dagToIcpdag it A I = .error .valueError ∨ dagToIcpdag it A I = .error .indexError) ∧
    (∀ c, mec it A c = .error .valueError ∨ mec it A c = .error .indexError) ∧
    ∀ I c, imec it A I c = .error .valueError ∨ imec it A I c = .error .indexError := by
  have h1 : dagToCpdag it A = .error .valueError ∨ dagToCpdag it A = .error .indexError := by
    unfold dagToCpdag orderEdges
    cases hd : isDag it A with
    | false => exact .inl rfl
    | true =>
      simp only [Bool.not_true, Bool.false_eq_true, if_false]
      cases ho : topologicalOrdering it A with
      | error err =>
        unfold isDag at hd
        rw [ho] at hd
        cases hd
      | ok order =>
        simp only
        rcases orderEdgesLoop_labels order (p * p) 1 _ (le_refl _) (Labels.init A) (by
          refine le_trans (Finset.card_le_univ _) ?_
          simp) with h | ⟨O, i, h, hl, hno⟩
        · rw [h]
          exact .inr rfl
        · rw [h]
          simp only
          rw [labelEdges_cyclic it hc hl hno]
          exact .inl rfl
  have h2 : ∀ I, dagToIcpdag it A I = .error .valueError ∨ dagToIcpdag it A I = .error .indexError := by
    intro I
    unfold dagToIcpdag
    rcases h1 with h | h <;> rw [h]
    · exact .inl rfl
    · exact .inr rfl
  have hch : isChainGraph A = false := by
    rw [← Bool.not_eq_true]
    intro h
    unfold isChainGraph at h
    rw [decide_eq_true_eq] at h
    refine hc (acyclic_of_rank (fun v : Fin p => v.val) fun a b hab => ?_)
    unfold Edge at hab
    rw [h a b] at hab
    unfold chainGraph at hab
    split at hab
    · omega
    · exact absurd rfl hab
  refine ⟨h1, h2, fun c => ?_, fun I c => ?_⟩
  · unfold mec
    rw [hch, Bool.and_false]
    split
    · exact .inl rfl
    · rcases h1 with h | h <;> rw [h]
      · exact .inl rfl
      · exact .inr rfl
  · unfold imec
    rw [hch, Bool.and_false]
    split
    · exact .inl rfl
    · split
      · exact .inl rfl
      · simp only [Bool.false_eq_true, if_false]
        rcases h2 (it.toList (Finset.univ.filter (fun i : Fin p => (i.val : Int) ∈ I))) with h | h <;> rw [h]
        · exact .inl rfl
        · exact .inr rfl

/-- C153: the same for doubles, infinities and NaN included, and for any order of the additions. -/
theorem C153_cyclic_float (S : Summer) (it : SetIter p) (A : FAdj p) (hc : ¬ Acyclic (graphOf A)) :
    (fdagToCpdag S it A = .error .valueError ∨ fdagToCpdag S it A = .error .indexError) ∧
    (∀ I, fdagToIcpdag S it A I = .error .valueError ∨ fdagToIcpdag S it A I = .error .indexError) ∧
    (∀ c, fmec S it A c = .error .valueError ∨ fmec S it A c = .error .indexError) ∧
    ∀ I c, fimec S it A I c = .error .valueError ∨ fimec S it A I c = .error .indexError := by
  have h1 : fdagToCpdag S it A = .error .valueError ∨ fdagToCpdag S it A = .error .indexError := by
    unfold fdagToCpdag forderEdges
    cases hd : fisDag S it A with
    | false => exact .inl rfl
    | true =>
      simp only [Bool.not_true, Bool.false_eq_true, if_false]
      cases ho : ftopologicalOrdering S it A with
      | error err =>
        unfold fisDag at hd
        rw [ho] at hd
        cases hd
      | ok order =>
        simp only
        have hO : (fun a b => if (! (A a b).isZero) = true then (-1 : Int) else 0) = fun a b => if graphOf A a b ≠ 0 then -1 else 0 := by
          funext a b
          rw [isZero_graphOf]
          simp
        rw [hO]
        rcases orderEdgesLoop_labels order (p * p) 1 _ (le_refl _) (Labels.init (graphOf A)) (by
          refine le_trans (Finset.card_le_univ _) ?_
          simp) with h | ⟨O, i, h, hl, hno⟩
        · rw [h]
          exact .inr rfl
        · rw [h]
          simp only
          rw [labelEdges_cyclic it hc hl hno]
          exact .inl rfl
  have hch : fisChainGraph A = false := by
    rw [← Bool.not_eq_true]
    intro h
    unfold fisChainGraph at h
    rw [decide_eq_true_eq] at h
    refine hc (acyclic_of_rank (fun v : Fin p => v.val) fun a b hab => ?_)
    unfold Edge at hab
    rw [graphOf_ne, h a b] at hab
    unfold chainGraph at hab
    split at hab
    · omega
    · exact absurd (by simp) hab
  have h2 : ∀ I, fdagToIcpdag S it A I = .error .valueError ∨ fdagToIcpdag S it A I = .error .indexError := by
    intro I
    unfold fdagToIcpdag
    rcases h1 with h | h <;> rw [h]
    · exact .inl rfl
    · exact .inr rfl
  refine ⟨h1, h2, fun c => ?_, fun I c => ?_⟩
  · unfold fmec
    rw [hch, Bool.and_false]
    split
    · exact .inl rfl
    · simp only [Bool.false_eq_true, if_false]
      rcases h1 with h | h <;> rw [h]
      · exact .inl rfl
      · exact .inr rfl
  · unfold fimec
    rw [hch, Bool.and_false]
    split
    · exact .inl rfl
    · split
      · exact .inl rfl
      · simp only [Bool.false_eq_true, if_false]
        rcases h2 (it.toList (Finset.univ.filter (fun i : Fin p => (i.val : Int) ∈ I))) with h | h <;> rw [h]
        · exact .inl rfl
        · exact .inr rfl

theorem withIcpdag_acyclic {it : SetIter p} {r : Except Err (AnyModel p e × Finset (Fin p) × Flt)} {P : Adj p} {I : Finset (Fin p)} {m : AnyModel p e}
    (h : withIcpdag it r = .ok (P, I, m)) : Acyclic m.A := by
  unfold withIcpdag at h
  split at h
  · cases h
  · rename_i m' I' s
    split at h
    · cases h
    · rename_i Q hQ
      cases h
      by_contra hc
      rcases (C153_cyclic it m.A hc).2.1 (it.toList I) with h' | h' <;> rw [h'] at hQ <;> cases hQ

/-- C153: the model that `equivalence_class` returns has an acyclic graph, whatever the candidates, the data and the fitting procedure are, and so has
the one that `equivalence_class_w_ges` returns. -/
theorem C153_equivalence_class (E : FitEnv p e) (data : Fin e → Sample p) (solverKnown prune : Bool) (numsLatent : Option (List Nat)) (folds : List Rat)
    (rs : Int) (P : Adj p) (I : Finset (Fin p)) (m : AnyModel p e) :
    (∀ candidates, equivalenceClass E candidates data solverKnown prune numsLatent folds rs = .ok (P, I, m) → Acyclic m.A) ∧
    (equivalenceClassGes E data solverKnown numsLatent folds rs = .ok (P, I, m) → Acyclic m.A) :=
  ⟨fun _ h => withIcpdag_acyclic h, fun h => withIcpdag_acyclic h⟩

/-- An example for `C153_cyclic`: `is_dag` accepts this graph with a cycle. -/
example (it : SetIter 5) : ¬ Acyclic (cycleP 1 0) ∧ isDag it (cycleP 1 0) = true :=
  ⟨fun h => h 0 (((Relation.TransGen.single (show Edge (cycleP 1 0) 0 1 by unfold Edge; decide)).tail (show Edge (cycleP 1 0) 1 2 by unfold Edge; decide)).tail
    (show Edge (cycleP 1 0) 2 0 by unfold Edge; decide)), (cycleP_passes it).1⟩

/-- Both errors occur: `is_dag` accepts the cycle with negative weights, and `dag_to_cpdag` raises an `IndexError`; with positive weights it is a
`ValueError`. -/
theorem C153_both_errors (it : SetIter 2) : ¬ Acyclic minusCycle ∧ isDag it minusCycle = true ∧ dagToCpdag it minusCycle = .error .indexError ∧
    dagToCpdag it (fun i j => - minusCycle i j) = .error .valueError := by
  have h1 := (C152_nonpositive it minusCycle (by decide)).1
  have hc : ¬ Acyclic minusCycle := fun h => h 0 ((Relation.TransGen.single (show Edge minusCycle 0 1 by unfold Edge; decide)).tail
    (show Edge minusCycle 1 0 by unfold Edge; decide))
  exact ⟨hc, h1, rfl, rfl⟩

end Verif
