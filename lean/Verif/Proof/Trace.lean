import Verif.Model.Trace
import Verif.Props.IntArrays
import Verif.Props.MainFit

/-! # Lemmas about the printed lines -/

namespace Verif

open Spec

variable {p e : Nat}

/-! ### Forgetting the lines -/

theorem pruneStepV_erase (it : SetIter p) (fit : Fitter p e) (v : Int) (s : PruneStateV p e) :
    pruneStep it fit s.state = (pruneStepV it fit v s).map (Sum.map PruneStateV.state PruneStateV.state) := by
  unfold pruneStep pruneStepV
  split
  · cases weakestEdge s.state.model.B with
    | error err => rfl
    | ok ab =>
      obtain ⟨a, b⟩ := ab
      simp only
      cases s.state.obj.scoreDag it fit (setEntry s.state.dag a b 0) Finset.univ with
      | error err => rfl
      | ok r => rfl
  · rfl

theorem pruneGraphV_erase (it : SetIter p) (fit : Fitter p e) (v : Int) (prune : Bool) (threshold : Option ℝ) (obj : ScoreObj p e)
    (i : Nat) (graph : Adj p) :
    (pruneGraphV it fit v prune threshold obj i graph).map Prod.fst = pruneGraph it fit prune threshold obj graph := by
  unfold pruneGraphV pruneGraph
  cases obj.scoreDag it fit graph Finset.univ with
  | error err => rfl
  | ok r =>
    obtain ⟨⟨m, s⟩, obj⟩ := r
    simp only
    split
    · rfl
    · cases threshold with
      | some t =>
        simp only
        split
        · rfl
        · cases obj.scoreDag it fit (fun i j => open Classical in if maxAbs m.B * t < |m.B i j| then 1 else 0) Finset.univ with
          | error err => rfl
          | ok r => rfl
      | none =>
        simp only
        have h := runLoop_sim (step := pruneStepV it fit v) (step' := pruneStep it fit) PruneStateV.state PruneStateV.state
          (pruneStepV_erase it fit v)
          { state := { dag := graph, model := m, obj := obj, models := [m] }, lines := printed v [.graph i (sumAll graph) s] }
        simp only at h
        rw [h]
        cases runLoop (pruneStepV it fit v)
          { state := { dag := graph, model := m, obj := obj, models := [m] }, lines := printed v [.graph i (sumAll graph) s] } with
        | error err => rfl
        | ok r => rfl

theorem pruneGraphsLoopV_erase (it : SetIter p) (fit : Fitter p e) (v : Int) (prune : Bool) (threshold : Option ℝ) (graphs : List (Adj p)) :
    ∀ (i : Nat) (obj : ScoreObj p e), (pruneGraphsLoopV it fit v prune threshold i graphs obj).map Prod.fst =
      pruneGraphsLoop it fit prune threshold graphs obj := by
  induction graphs with
  | nil => intro i obj; rfl
  | cons g gs ih =>
    intro i obj
    unfold pruneGraphsLoopV pruneGraphsLoop
    rw [← pruneGraphV_erase it fit v prune threshold obj i g]
    cases pruneGraphV it fit v prune threshold obj i g with
    | error err => rfl
    | ok r =>
      obtain ⟨⟨ms, obj⟩, out⟩ := r
      simp only [Except.map]
      rw [← ih (i + 1) obj]
      cases pruneGraphsLoopV it fit v prune threshold (i + 1) gs obj with
      | error err => rfl
      | ok r => rfl

theorem pruneGraphsV_erase (it : SetIter p) (fit : Fitter p e) (v : Int) (prune : Bool) (threshold : Option ℝ) (graphs : List (Adj p))
    (obj : ScoreObj p e) :
    (pruneGraphsV it fit v prune threshold graphs obj).map Prod.fst = pruneGraphs it fit prune threshold graphs obj := by
  unfold pruneGraphsV pruneGraphs
  split
  · rfl
  · rw [← pruneGraphsLoopV_erase it fit v prune threshold graphs 0 obj]
    cases pruneGraphsLoopV it fit v prune threshold 0 graphs obj with
    | error err => rfl
    | ok r => rfl

theorem pruneILoopV_erase (it : SetIter p) (fit : Fitter p e) (v : Int) (graph : Adj p) (order : List (Fin p)) :
    ∀ (I : Finset (Fin p)) (obj : ScoreObj p e), (pruneILoopV it fit v graph order I obj).map Prod.fst =
      pruneILoop it fit graph order I obj := by
  induction order with
  | nil => intro I obj; rfl
  | cons j order ih =>
    intro I obj
    unfold pruneILoopV pruneILoop
    simp only
    cases obj.scoreDag it fit graph (I.erase j) with
    | error err => rfl
    | ok r =>
      obtain ⟨⟨m, s⟩, obj⟩ := r
      simp only
      rw [← ih (I.erase j) obj]
      cases pruneILoopV it fit v graph order (I.erase j) obj with
      | error err => rfl
      | ok r => rfl

theorem pruneIV_erase (it : SetIter p) (argsort : (Fin p → ℝ) → List (Fin p)) (fit : Fitter p e) (v : Int) (threshold : Option ℝ)
    (graph : Adj p) (obj : ScoreObj p e) :
    (pruneIV it argsort fit v threshold graph obj).map Prod.fst = pruneI it argsort fit threshold graph obj := by
  unfold pruneIV pruneI
  cases obj.scoreDag it fit graph Finset.univ with
  | error err => rfl
  | ok r =>
    obtain ⟨⟨m, s⟩, obj⟩ := r
    simp only
    cases threshold with
    | some t =>
      simp only
      split
      · rfl
      · split
        · rename_i h
          rw [h]
          rfl
        · rename_i h
          rw [h]
          rfl
    | none =>
      simp only
      rw [← pruneILoopV_erase it fit v graph (argsort (varEnv m.omegas)) Finset.univ obj]
      cases pruneILoopV it fit v graph (argsort (varEnv m.omegas)) Finset.univ obj with
      | error err => rfl
      | ok r => rfl

theorem latentLoopV_erase (it : SetIter p) (fit : Nat → Fitter p e) (ctor : Except Err Unit) (v : Int) (prune : Bool)
    (threshold : Option ℝ) (graphs : List (Adj p)) (test : Data p e) (ns : List Nat) :
    ∀ results, (latentLoopV it fit ctor v prune threshold graphs test ns results).map Prod.fst =
      latentLoop it fit ctor prune threshold graphs test ns results := by
  induction ns with
  | nil => intro results; rfl
  | cons n ns ih =>
    intro results
    unfold latentLoopV latentLoop
    cases ctor with
    | error err => rfl
    | ok u =>
      simp only
      rw [← pruneGraphsV_erase it (fit n) v prune threshold graphs]
      cases pruneGraphsV it (fit n) v prune threshold graphs { calls := 0, cache := [] } with
      | error err => rfl
      | ok r =>
        obtain ⟨⟨models, obj⟩, out⟩ := r
        simp only [Except.map]
        cases testScores test id models with
        | error err => rfl
        | ok scores =>
          simp only
          cases bestScoring (scores.map (fun x => (x.1, x.2.A))) with
          | error err => rfl
          | ok b =>
            obtain ⟨s, A⟩ := b
            simp only
            rw [← ih (dictSet results n (s, A, obj))]
            cases latentLoopV it fit (.ok u) v prune threshold graphs test ns (dictSet results n (s, A, obj)) with
            | error err => rfl
            | ok r => rfl

theorem map_fst_ok {α β : Type} {x : Except Err (α × β)} {y : Except Err α} (h : x.map Prod.fst = y) {a : α} {b : β}
    (hx : x = .ok (a, b)) : y = .ok a := by
  rw [← h, hx]; rfl

theorem map_fst_error {α β : Type} {x : Except Err (α × β)} {y : Except Err α} (h : x.map Prod.fst = y) {err : Err}
    (hx : x = .error err) : y = .error err := by
  rw [← h, hx]; rfl

/-- A run that returns, with its output in parts. -/
theorem fitMainV_ok {E : FitEnv p e} {data : Fin e → Sample p} {solverKnown : Bool} {numsLatent : Option (List Nat)} {prune : Bool}
    {folds : List Rat} {tG tI : Option ℝ} {initial : Option (List (Adj p))} {rs v : Int} {m : AnyModel p e} {I : Finset (Fin p)} {s : Flt}
    {out : List (Line p)}
    (h : fitMainV E data solverKnown numsLatent prune folds tG tI initial rs v = .ok ((m, I, s), out)) :
    ∃ training testG testI graphs ns results out1 sc n graph obj rest models obj' out2 scores,
      splitData (E.rng rs) (List.ofFn data) folds = .ok [training, testG, testI] ∧ initialGraphs E initial training = .ok graphs ∧
      latentNumbers E numsLatent training = .ok ns ∧
      latentLoopV E.it (E.fit (foldData E.cov training e)) (scoreCtor training solverKnown) v prune tG graphs (foldData E.cov testG e)
        ns [] = .ok (results, out1) ∧
      sortedM tupleLt (results.map (fun r => (r.2.1, r.1, r.2.2.1, r.2.2.2))) = .ok ((sc, n, graph, obj) :: rest) ∧
      pruneIV E.it E.argsort (E.fit (foldData E.cov training e) n) v tI graph obj = .ok ((models, obj'), out2) ∧
      testScores (foldData E.cov testI e) Prod.fst models = .ok scores ∧ bestScoring scores = .ok (s, m, I) ∧
      out = gesLines v initial ++ printed v [.initial graphs.length (graphs.map sumAll)] ++
        screeLines v numsLatent ns ++ printed v [.graphPhase] ++ out1 ++
        printed v [.bestLatents n, .targetPhase] ++ out2 ++ printed v [.bestTargets s, .final n (sumAll m.A) I] := by
  unfold fitMainV at h
  split at h
  · simp at h
  · rename_i training testG testI h1
    split at h
    · simp at h
    · rename_i graphs h2
      split at h
      · simp at h
      · rename_i ns h3
        split at h
        · simp at h
        · rename_i results out1 h4
          split at h
          · simp at h
          · simp at h
          · rename_i sc n graph obj rest h5
            split at h
            · simp at h
            · rename_i models obj' out2 h6
              split at h
              · simp at h
              · rename_i scores h7
                split at h
                · simp at h
                · rename_i s' m' I' h8
                  simp only [Except.ok.injEq, Prod.mk.injEq] at h
                  obtain ⟨⟨rfl, rfl, rfl⟩, rfl⟩ := h
                  exact ⟨training, testG, testI, graphs, ns, results, out1, sc, n, graph, obj, rest, models, obj', out2, scores, h1, h2,
                    h3, h4, h5, h6, h7, h8, rfl⟩
  · simp at h

/-! ### The lines of the pruning loops -/

/-- The lines while a graph is pruned: one for the graph and one for every model after the first. -/
structure LinesOk (it : SetIter p) (fit : Fitter p e) (i : Nat) (G : Adj p) (s : PruneStateV p e) : Prop where
  length : s.lines.length = s.state.models.length
  head : ∃ m likl, s.state.models[0]? = some m ∧ s.lines[0]? = some (.graph i (sumAll G) likl) ∧ FittedTo it fit G Finset.univ m likl
  steps : ∀ (k : Nat) (m m' : AnyModel p e), s.state.models[k]? = some m → s.state.models[k + 1]? = some m' →
    ∃ a b likl, s.lines[k + 1]? = some (.removing (a, b) (m.B a b) (sumAll m'.A) likl) ∧ IsWeakest m.B a b ∧
      RemovesEdge m.A m'.A a b ∧ FittedTo it fit m'.A Finset.univ m' likl

theorem linesOk_step {it : SetIter p} {fit : Fitter p e} (hg : GoodFit fit) {v : Int} (hv : v ≠ 0) {i : Nat} {G : Adj p}
    {s s' : PruneStateV p e} (hi : PruneInv it fit G s.state) (h : LinesOk it fit i G s) (h0 : s.state.model.B ≠ 0)
    (hs : pruneStepV it fit v s = .ok (.inl s')) : LinesOk it fit i G s' := by
  obtain ⟨a, b, h1, h2, h3⟩ := weakestEdge_spec h0
  unfold pruneStepV at hs
  split at hs
  case isFalse => simp at hs
  case isTrue hpos =>
    rw [h1] at hs
    simp only [] at hs
    split at hs
    · simp at hs
    · rename_i m sc obj hobj
      cases hs
      have hab : s.state.dag a b ≠ 0 := fun hc => h2 (hi.respects a b hc)
      obtain ⟨g1, g2, g3⟩ := scoreObj_spec hi.obj hobj
      obtain ⟨g4, g5, g6⟩ := g2.good hg
      have hne : s.state.models ≠ [] := by
        intro hc
        have := hi.last
        rw [hc] at this
        simp at this
      have hlen : 0 < s.state.models.length := List.length_pos_iff.2 hne
      have hll := h.length
      simp only [printed, if_neg hv]
      refine ⟨by simp [h.length], ?_, ?_⟩
      · obtain ⟨m0, l0, k1, k2, k3⟩ := h.head
        refine ⟨m0, l0, ?_, ?_, k3⟩
        · simp only
          rw [List.getElem?_append_left hlen, k1]
        · simp only
          rw [List.getElem?_append_left (by omega), k2]
      · intro k mm mm' e1 e2
        simp only at e1 e2 ⊢
        have hk : k + 1 < (s.state.models ++ [m]).length := (List.getElem?_eq_some_iff.1 e2).1
        simp only [List.length_append, List.length_singleton] at hk
        rcases Nat.lt_or_ge (k + 1) s.state.models.length with hk' | hk'
        · rw [List.getElem?_append_left (by omega)] at e1 e2 ⊢
          exact h.steps k mm mm' e1 e2
        · have hkk : k + 1 = s.state.models.length := by omega
          rw [List.getElem?_append_left (by omega)] at e1
          rw [hkk, List.getElem?_concat_length] at e2
          cases e2
          have hmm : mm = s.state.model := by
            have := hi.last
            rw [List.getLast?_eq_getElem?] at this
            have hkm : s.state.models.length - 1 = k := by omega
            rw [hkm, e1] at this
            cases this
            rfl
          subst hmm
          refine ⟨a, b, sc, ?_, ⟨h2, h3⟩, ?_, by rw [g4]; exact g2⟩
          · rw [hkk, ← h.length, List.getElem?_concat_length, g4]
          · rw [hi.dag, g4]
            exact removesEdge_setEntry hab

theorem pruneLoopV_ok {it : SetIter p} {fit : Fitter p e} (hg : GoodFit fit) {v : Int} (hv : v ≠ 0) {i : Nat} {G : Adj p}
    {s r : PruneStateV p e} (h : PruneInv it fit G s.state) (hl : LinesOk it fit i G s) (hr : runLoop (pruneStepV it fit v) s = .ok r) :
    PruneInv it fit G r.state ∧ LinesOk it fit i G r ∧ ∀ a b, r.state.dag a b = 0 := by
  have proj : ∀ s x, pruneStepV it fit v s = .ok x → pruneStep it fit s.state = .ok (x.map PruneStateV.state PruneStateV.state) := by
    intro s x hx
    rw [pruneStepV_erase it fit v s, hx]
    rfl
  refine runLoop_ok (P := fun s => (PruneInv it fit G s.state ∧ LinesOk it fit i G s) ∨ PruneStuck it fit s.state)
    (Q := fun r => PruneInv it fit G r.state ∧ LinesOk it fit i G r ∧ ∀ a b, r.state.dag a b = 0) ?_ ?_ (Or.inl ⟨h, hl⟩) hr
  · intro s s' hs hst
    have hst' := proj _ _ hst
    simp only [Sum.map_inl] at hst'
    rcases hs with ⟨hs, hl⟩ | hs
    · by_cases h0 : s.state.model.B = 0
      · have hpos : 0 < sumAll s.state.dag := by
          by_contra hc
          unfold pruneStep at hst'
          rw [if_neg hc] at hst'
          simp at hst'
        obtain ⟨s'', h1, h2⟩ := pruneStuck_step (pruneInv_stuck hs h0 hpos)
        rw [hst'] at h1
        cases h1
        exact Or.inr h2
      · exact Or.inl ⟨(pruneInv_step hg hs h0 hst').1, linesOk_step hg hv hs hl h0 hst⟩
    · obtain ⟨s'', h1, h2⟩ := pruneStuck_step hs
      rw [hst'] at h1
      cases h1
      exact Or.inr h2
  · intro s r hs hst
    have hst' := proj _ _ hst
    simp only [Sum.map_inr] at hst'
    have hpos := (pruneStep_exit hst').2
    have hrs : r = s := by
      unfold pruneStepV at hst
      rw [if_neg hpos] at hst
      simp only [Except.ok.injEq, Sum.inr.injEq] at hst
      exact hst.symm
    subst hrs
    rcases hs with ⟨hs, hl⟩ | hs
    · refine ⟨hs, hl, ?_⟩
      by_contra hc
      push Not at hc
      exact hpos ((sumAll_pos_iff hs.nonneg).2 hc)
    · exact absurd hs.pos hpos

/-- A sum of entries that are not negative counts the edges exactly if they are zeros and ones. -/
theorem sumAll_eq_nnz_iff {A : Adj p} (h : Nonneg A) : sumAll A = nnz A ↔ ZeroOne A := by
  have h1 : (nnz A : Int) = ∑ i, ∑ j, if A i j ≠ 0 then 1 else 0 := by
    unfold nnz
    rw [Finset.card_filter, ← Finset.univ_product_univ, Finset.sum_product]
    push_cast
    rfl
  have hle : ∀ i j, (if A i j ≠ 0 then 1 else 0) ≤ A i j := by
    intro i j
    have := h i j
    split <;> omega
  rw [h1]
  unfold sumAll
  constructor
  · intro he i j
    have e1 := (Finset.sum_eq_sum_iff_of_le (fun i _ => Finset.sum_le_sum (fun j _ => hle i j))).1 he.symm i (Finset.mem_univ i)
    have e2 := (Finset.sum_eq_sum_iff_of_le (fun j _ => hle i j)).1 e1 j (Finset.mem_univ j)
    split at e2
    · exact Or.inr e2.symm
    · exact Or.inl e2.symm
  · intro hz
    refine Finset.sum_congr rfl fun i _ => Finset.sum_congr rfl fun j _ => ?_
    rcases hz i j with hz | hz <;> simp [hz]

theorem Spec.Subgraph.zeroOne {H G : Adj p} (h : Subgraph H G) (hG : ZeroOne G) : ZeroOne H := by
  intro a b
  rcases h a b with h | h
  · rw [h]; exact hG a b
  · exact Or.inl h

theorem pruneILoopV_spec {it : SetIter p} {fit : Fitter p e} {v : Int} (hv : v ≠ 0) {graph : Adj p} (order : List (Fin p)) :
    ∀ (I : Finset (Fin p)) (obj obj' : ScoreObj p e) (ms : List (AnyModel p e × Finset (Fin p))) (out : List (Line p)), obj.Ok it fit →
      pruneILoopV it fit v graph order I obj = .ok ((ms, obj'), out) →
      out.length = order.length ∧ ∀ (i : Nat) (hi : i < order.length), ∃ m likl,
        ms[i]? = some (m, I \ (order.take (i + 1)).toFinset) ∧
        out[i]? = some (.without likl order[i] (I \ (order.take (i + 1)).toFinset)) ∧
        FittedTo it fit graph (I \ (order.take (i + 1)).toFinset) m likl := by
  induction order with
  | nil =>
    intro I obj obj' ms out ho h
    simp only [pruneILoopV, Except.ok.injEq, Prod.mk.injEq] at h
    obtain ⟨⟨rfl, rfl⟩, rfl⟩ := h
    exact ⟨rfl, by simp⟩
  | cons j order ih =>
    intro I obj obj' ms out ho h
    simp only [pruneILoopV] at h
    split at h
    · simp at h
    · rename_i m s obj1 h1
      split at h
      · simp at h
      · rename_i ms' obj2 out' h2
        cases h
        obtain ⟨k1, k2, -⟩ := scoreObj_spec ho h1
        obtain ⟨k4, k5⟩ := ih _ _ _ _ _ k1 h2
        have hI : I \ {j} = I.erase j := by rw [Finset.sdiff_singleton_eq_erase]
        simp only [printed, if_neg hv, List.singleton_append]
        refine ⟨by simp [k4], ?_⟩
        intro i hi
        cases i with
        | zero => exact ⟨m, s, by simp [hI], by simp [hI], by simpa [hI] using k2⟩
        | succ i =>
          obtain ⟨m', s', k6, k7, k8⟩ := k5 i (by simpa using hi)
          have hs : I \ ((j :: order).take (i + 1 + 1)).toFinset = I.erase j \ (order.take (i + 1)).toFinset := by
            ext x
            simp only [List.take_succ_cons, List.toFinset_cons, Finset.mem_sdiff, Finset.mem_insert, Finset.mem_erase]
            tauto
          refine ⟨m', s', ?_, ?_, ?_⟩
          · rw [hs]; simpa using k6
          · rw [hs]; simpa using k7
          · rw [hs]; exact k8

end Verif
