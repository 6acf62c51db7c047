import Verif.Proof.MainPrune
import Verif.Props.Score
import Verif.Props.ScoreTotal

/-!
# C54–C57: selection of the best model, pruning of graphs and targets
-/

namespace Verif

open Spec

variable {p e : Nat}

/-! ## C54 -/

/-- C54: if no score is `nan`, `_best_scoring` returns the first tuple with the smallest score. -/
theorem C54_first_minimum {β : Type} (tuples : List (Flt × β)) (hne : tuples ≠ []) (hn : ∀ t ∈ tuples, t.1 ≠ none) :
    ∃ (i : Nat) (x : ℝ) (b : β), bestScoring tuples = .ok (some x, b) ∧ tuples[i]? = some (some x, b) ∧
      (∀ y b', (some y, b') ∈ tuples → x ≤ y) ∧ ∀ j < i, ∀ y b', tuples[j]? = some (some y, b') → x < y := by
  obtain ⟨i, ⟨f, b⟩, h1, h2, h3, h4⟩ := bestScoring_spec hne
  cases f with
  | none => exact absurd rfl (hn _ (List.mem_of_getElem? h2))
  | some x =>
    exact ⟨i, x, b, h1, h2, fun y b' hy => fltKey_le_some.1 (h3 _ hy), fun j hj y b' hy => fltKey_lt_some.1 (h4 j hj _ hy)⟩

/-- C54: a `nan` wins over every number; the first `nan` is returned. -/
theorem C54_nan_preferred {β : Type} (tuples : List (Flt × β)) (hn : ∃ t ∈ tuples, t.1 = none) :
    ∃ (i : Nat) (b : β), bestScoring tuples = .ok (none, b) ∧ tuples[i]? = some (none, b) ∧
      ∀ j < i, ∀ (f : Flt) (b' : β), tuples[j]? = some (f, b') → f ≠ none := by
  obtain ⟨t0, ht0, hnan⟩ := hn
  obtain ⟨i, ⟨f, b⟩, h1, h2, h3, h4⟩ := bestScoring_spec (List.ne_nil_of_mem ht0)
  have hf : f = none := by
    have := h3 t0 ht0
    rw [hnan] at this
    exact fltKey_le_none.1 this
  subst hf
  refine ⟨i, b, h1, h2, ?_⟩
  rintro j hj f b' hf rfl
  exact lt_irrefl _ (h4 j hj (none, b') hf)

/-- C54: the empty list raises `ValueError`. -/
theorem C54_empty {β : Type} : bestScoring ([] : List (Flt × β)) = .error .valueError := rfl

section Example

example : ∃ (i : Nat) (x : ℝ) (b : Nat), bestScoring [((some 3 : Flt), 10), (some 1, 11), (some 1, 12)] = .ok (some x, b) ∧ b = 11 ∧ i = 1 := by
  obtain ⟨i, x, b, h1, h2, h3, h4⟩ := C54_first_minimum [((some 3 : Flt), 10), (some 1, 11), (some 1, 12)] (by simp) (by simp)
  have hx : x ≤ 1 := h3 1 11 (by simp)
  have hi : i ≤ 1 := by
    by_contra hc
    have := h4 1 (by omega) 1 11 (by simp)
    obtain ⟨j, rfl⟩ : ∃ j, i = j + 2 := ⟨i - 2, by omega⟩
    cases j with
    | zero => simp at h2; linarith [h2.1]
    | succ j => simp at h2
  interval_cases i
  · simp at h2; linarith [h2.1]
  · simp at h2; exact ⟨1, x, b, h1, h2.2.symm, rfl⟩

example : ∃ b, bestScoring [((some (-3) : Flt), 10), (none, 11)] = .ok (none, b) := by
  obtain ⟨i, b, h, -⟩ := C54_nan_preferred [((some (-3) : Flt), 10), (none, 11)] ⟨(none, 11), by simp, rfl⟩
  exact ⟨b, h⟩

end Example

/-! ## The fitting procedure of the code -/

/-- The fitting procedure of the code meets the contract used below (C45). -/
theorem codeFit_good (it : SetIter p) (svd : Matrix (Fin p) (Fin p) ℝ → Matrix (Fin p) (Fin p) ℝ × (Fin p → ℝ)) (num : NumLib p e)
    (cfg : ScoreCfg) (u v : Nat → Nat → Nat → Fin (p * p) → ℝ) (d : Data p e) (h : Nat)
    (hu : cfg.solver = .grad → ∀ n, GoodDraws p (u h n)) : GoodFit (codeFit it svd num cfg u v d h) := by
  intro n A I m s hm
  unfold codeFit at hm
  split at hm
  · simp at hm
  · rename_i m0 s0 h0
    cases hm
    have h1 := C45_fitted_model (fun hc => hu hc n) none _ _ h0
    refine ⟨h1.1, fun hA => (isDag_iff it hA).1 (fitDag_ok h0).1, h1.2.1⟩

/-- The models it returns have the requested number of latents and can be copied. -/
theorem codeFit_latents {it : SetIter p} {svd : Matrix (Fin p) (Fin p) ℝ → Matrix (Fin p) (Fin p) ℝ × (Fin p → ℝ)} {num : NumLib p e}
    {cfg : ScoreCfg} {u v : Nat → Nat → Nat → Fin (p * p) → ℝ} {d : Data p e} {h n : Nat} {A : Adj p} {I : Finset (Fin p)}
    {m : AnyModel p e} {s : Flt} (hm : codeFit it svd num cfg u v d h n A I = .ok (m, s)) : m.1 = h := by
  unfold codeFit at hm
  split at hm
  · simp at hm
  · cases hm; rfl

/-! ## C55 -/

/-- The chain of models that pruning a graph must produce: from `G` to the empty graph, each time removing exactly the weakest
edge of the model fitted to the current graph. -/
structure Spec.PruningChain (it : SetIter p) (fit : Fitter p e) (G : Adj p) (ms : List (AnyModel p e)) : Prop where
  length : ms.length = nnz G + 1
  first : ∃ m, ms.head? = some m ∧ m.A = G
  last : ∃ m, ms.getLast? = some m ∧ ∀ a b, m.A a b = 0
  steps : ∀ (i : Nat) (m m' : AnyModel p e), ms[i]? = some m → ms[i + 1]? = some m' →
    ∃ a b, IsWeakest m.B a b ∧ RemovesEdge m.A m'.A a b
  fitted : ∀ m ∈ ms, ∃ s, FittedTo it fit m.A Finset.univ m s

theorem pruneInv_initial {it : SetIter p} {fit : Fitter p e} (hg : GoodFit fit) {obj obj' : ScoreObj p e} (ho : obj.Ok it fit)
    {G : Adj p} (hG : Nonneg G) {m : AnyModel p e} {s : Flt} (h : obj.scoreDag it fit G Finset.univ = .ok ((m, s), obj')) :
    PruneInv it fit G { dag := G, model := m, obj := obj', models := [m] } := by
  obtain ⟨g1, g2, g3⟩ := scoreObj_spec ho h
  obtain ⟨g4, g5, g6⟩ := g2.good hg
  refine ⟨g1, hG, g3, g4, g6, g5 hG, fun a b => Or.inl rfl, ?_, ⟨m, rfl, g4⟩, rfl, by simp, ?_⟩
  · simp only [List.length_singleton]
    omega
  · intro m' hm'
    rw [List.mem_singleton.1 hm', g4]
    exact ⟨s, g2⟩

/-- C55: whenever pruning a candidate returns, the models form the chain from the candidate to the empty graph that removes the
weakest edge each time, so there are `|E| + 1` of them. -/
theorem C55_chain (it : SetIter p) (fit : Fitter p e) (hg : GoodFit fit) (obj obj' : ScoreObj p e) (ho : obj.Ok it fit) (G : Adj p)
    (hG : Nonneg G) (ms : List (AnyModel p e)) (h : pruneGraph it fit true none obj G = .ok (ms, obj')) :
    PruningChain it fit G ms ∧ obj'.Ok it fit := by
  unfold pruneGraph at h
  split at h
  · simp at h
  · rename_i m s obj1 h1
    simp only [Bool.not_true, Bool.false_eq_true, if_false] at h
    split at h
    · simp at h
    · rename_i r hr
      cases h
      obtain ⟨hi, hz⟩ := pruneLoop_ok hg (pruneInv_initial hg ho hG h1) hr
      refine ⟨⟨?_, hi.head, ⟨r.model, hi.last, ?_⟩, ?_, hi.fitted⟩, hi.obj⟩
      · have := hi.len
        have hn : nnz r.dag = 0 := by
          unfold nnz
          rw [Finset.card_eq_zero, Finset.filter_eq_empty_iff]
          intro x _
          simp [hz]
        omega
      · rw [hi.dag]; exact hz
      · intro i m m' hm hm'
        have hc := hi.chain
        rw [List.isChain_iff_getElem] at hc
        obtain ⟨hl, rfl⟩ := List.getElem?_eq_some_iff.1 hm'
        obtain ⟨hl', rfl⟩ := List.getElem?_eq_some_iff.1 hm
        exact hc i hl

/-- C55: every graph on the chain is a DAG and a subgraph of the candidate, and the graphs are pairwise different. -/
theorem C55_graphs (it : SetIter p) (fit : Fitter p e) (hg : GoodFit fit) (G : Adj p) (hG : Nonneg G) (ms : List (AnyModel p e))
    (h : PruningChain it fit G ms) :
    (∀ m ∈ ms, Acyclic m.A ∧ Subgraph m.A G) ∧ (∀ (i : Nat) m, ms[i]? = some m → nnz m.A + i = nnz G) ∧
      (ms.map (fun m => m.A)).Nodup := by
  have key : ∀ (i : Nat) (m : AnyModel p e), ms[i]? = some m → Subgraph m.A G ∧ nnz m.A + i = nnz G := by
    intro i
    induction i with
    | zero =>
      intro m hm
      obtain ⟨m0, h1, h2⟩ := h.first
      rw [List.head?_eq_getElem?, hm] at h1
      cases h1
      rw [h2]
      exact ⟨fun a b => Or.inl rfl, by omega⟩
    | succ i ih =>
      intro m' hm'
      have hl := (List.getElem?_eq_some_iff.1 hm').1
      have hm : ms[i]? = some ms[i] := List.getElem?_eq_getElem (by omega)
      obtain ⟨h1, h2⟩ := ih _ hm
      obtain ⟨a, b, -, h3, h4, h5⟩ := h.steps i _ _ hm hm'
      have heq : m'.A = setEntry (ms[i]).A a b 0 := by
        funext c d
        unfold setEntry
        split
        · rename_i hcd; rw [hcd.1, hcd.2, h4]
        · rename_i hcd; exact h5 c d hcd
      refine ⟨fun c d => ?_, ?_⟩
      · rw [heq]
        unfold setEntry
        split
        · exact Or.inr rfl
        · exact h1 c d
      · rw [heq]
        have := nnz_setEntry_zero h3
        omega
  refine ⟨?_, fun i m hm => (key i m hm).2, ?_⟩
  · intro m hm
    obtain ⟨i, hi⟩ := List.getElem?_of_mem hm
    have hsub := (key i m hi).1
    refine ⟨?_, hsub⟩
    obtain ⟨s, hs⟩ := h.fitted m hm
    refine (hs.good hg).2.1 (fun a b => ?_)
    rcases hsub a b with h1 | h1
    · rw [h1]; exact hG a b
    · rw [h1]
  · rw [List.nodup_iff_getElem?_ne_getElem?]
    intro i j hij hj hc
    simp only [List.length_map] at hj
    have hi' : ms[i]? = some ms[i] := List.getElem?_eq_getElem (by omega)
    have hj' : ms[j]? = some ms[j] := List.getElem?_eq_getElem hj
    have k1 := (key i _ hi').2
    have k2 := (key j _ hj').2
    simp only [List.getElem?_map, hi', hj', Option.map_some, Option.some.injEq] at hc
    rw [hc] at k1
    omega

/-- C55: without pruning exactly one model is fitted, to the candidate itself. -/
theorem C55_no_pruning (it : SetIter p) (fit : Fitter p e) (hg : GoodFit fit) (threshold : Option ℝ) (obj obj' : ScoreObj p e)
    (ho : obj.Ok it fit) (G : Adj p) (ms : List (AnyModel p e)) (h : pruneGraph it fit false threshold obj G = .ok (ms, obj')) :
    obj'.Ok it fit ∧ ∃ m s, ms = [m] ∧ m.A = G ∧ FittedTo it fit G Finset.univ m s := by
  unfold pruneGraph at h
  split at h
  · simp at h
  · rename_i m s obj1 h1
    simp only [Bool.not_false, if_true, Except.ok.injEq, Prod.mk.injEq] at h
    obtain ⟨rfl, rfl⟩ := h
    obtain ⟨g1, g2, -⟩ := scoreObj_spec ho h1
    exact ⟨g1, m, s, rfl, (g2.good hg).1, g2⟩

/-- C55, all candidates: the list of models is the concatenation of one block per candidate, in the order of the candidates. -/
theorem pruneGraphsLoop_blocks {it : SetIter p} {fit : Fitter p e} {prune : Bool}
    (P : Adj p → List (AnyModel p e) → Prop)
    (hP : ∀ G obj ms obj', Nonneg G → obj.Ok it fit → pruneGraph it fit prune none obj G = .ok (ms, obj') → P G ms ∧ obj'.Ok it fit) :
    ∀ (graphs : List (Adj p)) (obj obj' : ScoreObj p e) (ms : List (AnyModel p e)), (∀ G ∈ graphs, Nonneg G) → obj.Ok it fit →
      pruneGraphsLoop it fit prune none graphs obj = .ok (ms, obj') →
      obj'.Ok it fit ∧ ∃ blocks, ms = blocks.flatten ∧ List.Forall₂ P graphs blocks := by
  intro graphs
  induction graphs with
  | nil =>
    intro obj obj' ms _ ho h
    simp only [pruneGraphsLoop, Except.ok.injEq, Prod.mk.injEq] at h
    obtain ⟨rfl, rfl⟩ := h
    exact ⟨ho, [], rfl, List.Forall₂.nil⟩
  | cons G graphs ih =>
    intro obj obj' ms hn ho h
    rw [pruneGraphsLoop] at h
    split at h
    · simp at h
    · rename_i b obj1 h1
      split at h
      · simp at h
      · rename_i b' obj2 h2
        cases h
        obtain ⟨k1, k2⟩ := hP G obj b obj1 (hn G (by simp)) ho h1
        obtain ⟨k3, blocks, rfl, k4⟩ := ih obj1 obj' b' (fun G' hG' => hn G' (by simp [hG'])) k2 h2
        exact ⟨k3, b :: blocks, by simp, List.Forall₂.cons k1 k4⟩

/-- C55, all candidates, with pruning. -/
theorem C55_all_chains (it : SetIter p) (fit : Fitter p e) (hg : GoodFit fit) (graphs : List (Adj p)) (hG : ∀ G ∈ graphs, Nonneg G)
    (obj obj' : ScoreObj p e) (ho : obj.Ok it fit) (ms : List (AnyModel p e))
    (h : pruneGraphs it fit true none graphs obj = .ok (ms, obj')) :
    obj'.Ok it fit ∧ graphs ≠ [] ∧ ∃ blocks, ms = blocks.flatten ∧ List.Forall₂ (PruningChain it fit) graphs blocks := by
  unfold pruneGraphs at h
  split_ifs at h with h0
  have := pruneGraphsLoop_blocks (PruningChain it fit)
    (fun G obj ms obj' hG ho h => C55_chain it fit hg obj obj' ho G hG ms h) graphs obj obj' ms hG ho h
  exact ⟨this.1, fun hc => h0 (by simp [hc]), this.2⟩

/-- C55, all candidates, without pruning: the graphs of the models are exactly the candidates. -/
theorem C55_all_candidates (it : SetIter p) (fit : Fitter p e) (hg : GoodFit fit) (graphs : List (Adj p)) (hG : ∀ G ∈ graphs, Nonneg G)
    (obj obj' : ScoreObj p e) (ho : obj.Ok it fit) (ms : List (AnyModel p e))
    (h : pruneGraphs it fit false none graphs obj = .ok (ms, obj')) :
    obj'.Ok it fit ∧ graphs ≠ [] ∧ ms.map (fun m => m.A) = graphs ∧ (∀ G ∈ graphs, Acyclic G) ∧
      ∀ m ∈ ms, ∃ s, FittedTo it fit m.A Finset.univ m s := by
  unfold pruneGraphs at h
  split_ifs at h with h0
  obtain ⟨k1, blocks, rfl, k2⟩ := pruneGraphsLoop_blocks
    (fun G b => ∃ m s, b = [m] ∧ m.A = G ∧ Acyclic G ∧ FittedTo it fit G Finset.univ m s) (fun G obj ms obj' hG ho h => by
      obtain ⟨k1, m, s, k2, k3, k4⟩ := C55_no_pruning it fit hg none obj obj' ho G ms h
      exact ⟨⟨m, s, k2, k3, (k4.good hg).2.1 hG, k4⟩, k1⟩) graphs obj obj' ms hG ho h
  refine ⟨k1, fun hc => h0 (by simp [hc]), ?_⟩
  clear h h0 k1
  induction k2 with
  | nil => simp
  | cons hx _ ih =>
    obtain ⟨m, s, rfl, rfl, h3, h4⟩ := hx
    obtain ⟨i1, i2, i3⟩ := ih (fun G hG' => hG G (by simp [hG']))
    refine ⟨by simpa using i1, ?_, ?_⟩
    · intro G hG'
      rcases List.mem_cons.1 hG' with rfl | hG'
      · exact h3
      · exact i2 G hG'
    · intro m' hm'
      simp only [List.flatten_cons, List.cons_append, List.nil_append, List.mem_cons] at hm'
      rcases hm' with rfl | hm'
      · exact ⟨s, h4⟩
      · exact i3 m' hm'

/-- C55: `_prune_graphs` on an empty list raises `IndexError`. -/
theorem C55_empty (it : SetIter p) (fit : Fitter p e) (prune : Bool) (threshold : Option ℝ) (obj : ScoreObj p e) :
    pruneGraphs it fit prune threshold [] obj = .error .indexError := rfl

/-- The fits of all subgraphs of `G` return and can be stored. -/
def Spec.FitsReturn (it : SetIter p) (fit : Fitter p e) (G : Adj p) : Prop :=
  ∀ n H, Nonneg H → Subgraph H G → ∃ m s m', fit n H Finset.univ = .ok (m, s) ∧ m.copy it = .ok m'

theorem scoreObj_returns {it : SetIter p} {fit : Fitter p e} {obj : ScoreObj p e} (ho : obj.Ok it fit) {A : Adj p}
    {I : Finset (Fin p)} (h : ∀ n, ∃ m s m', fit n A I = .ok (m, s) ∧ m.copy it = .ok m') :
    ∃ r obj', obj.scoreDag it fit A I = .ok (r, obj') := by
  by_cases hk : ∃ en ∈ obj.cache, IsKey A I en
  · obtain ⟨en, h1, h2⟩ := hk
    exact ⟨_, _, scoreObj_hit ho h1 h2⟩
  · push Not at hk
    obtain ⟨m, s, m', h1, h2⟩ := h obj.calls
    have hf : obj.cache.find? (fun en => decide (IsKey A I en)) = none := by
      rw [List.find?_eq_none]
      intro en hen
      simp [hk en hen]
    unfold ScoreObj.scoreDag Verif.scoreDag
    simp only [cacheRead_spec _ ho.1, hf, Option.map_none, h1, (cacheWrite_spec (AnyModel.copy it) obj.cache ho.1 A I m s).2 hk, h2]
    exact ⟨_, _, rfl⟩

theorem pruneStep_returns {it : SetIter p} {fit : Fitter p e} {G : Adj p} (hf : FitsReturn it fit G) {s : PruneState p e}
    (h : PruneInv it fit G s) : ∃ r, pruneStep it fit s = .ok r := by
  by_cases hpos : 0 < sumAll s.dag
  · by_cases h0 : s.model.B = 0
    · obtain ⟨s', h1, -⟩ := pruneStuck_step (pruneInv_stuck h h0 hpos)
      exact ⟨_, h1⟩
    · obtain ⟨a, b, h1, h2, h3⟩ := weakestEdge_spec h0
      unfold pruneStep
      rw [if_pos hpos, h1]
      simp only
      obtain ⟨⟨m, sc⟩, obj', hr⟩ := scoreObj_returns (A := setEntry s.dag a b 0) (I := Finset.univ) h.obj
        (fun n => hf n _ (setEntry_nonneg h.nonneg a b) (fun c d => by
          simp only [setEntry]
          split
          · exact Or.inr rfl
          · exact h.sub c d))
      rw [hr]
      exact ⟨_, rfl⟩
  · exact ⟨.inr s, by unfold pruneStep; rw [if_neg hpos]⟩

/-- No model fitted to a non-empty subgraph of `G` has only zero weights. -/
def Spec.KeepsWeights (fit : Fitter p e) (G : Adj p) : Prop :=
  ∀ n H m s, Nonneg H → Subgraph H G → fit n H Finset.univ = .ok (m, s) → (∃ a b, H a b ≠ 0) → m.B ≠ 0

/-- C55: if all fits return and no model fitted to a non-empty subgraph has only zero weights, pruning returns. -/
theorem C55_returns (it : SetIter p) (fit : Fitter p e) (hg : GoodFit fit) (obj : ScoreObj p e) (ho : obj.Ok it fit) (G : Adj p)
    (hG : Nonneg G) (hf : FitsReturn it fit G)
    (hB : KeepsWeights fit G) : ∃ r, pruneGraph it fit true none obj G = .ok r := by
  obtain ⟨⟨m, s⟩, obj', h1⟩ := scoreObj_returns (A := G) (I := Finset.univ) ho (fun n => hf n G hG (fun a b => Or.inl rfl))
  have hi := pruneInv_initial hg ho hG h1
  have hne : ∀ s : PruneState p e, PruneInv it fit G s → 0 < sumAll s.dag → s.model.B ≠ 0 := by
    intro s hs hpos h0
    obtain ⟨sc, hsc⟩ := hs.fitted s.model (List.mem_of_getLast? hs.last)
    obtain ⟨n, m0, k1, -, -, k4, -⟩ := hsc.fields
    rw [hs.dag] at k1
    exact hB n _ _ _ hs.nonneg hs.sub k1 ((sumAll_pos_iff hs.nonneg).1 hpos) (k4 ▸ h0)
  have hcont : ∀ s s' : PruneState p e, PruneInv it fit G s → pruneStep it fit s = .ok (.inl s') →
      PruneInv it fit G s' ∧ nnz s'.dag < nnz s.dag := by
    intro s s' hs hst
    have hpos : 0 < sumAll s.dag := by
      by_contra hc
      unfold pruneStep at hst
      rw [if_neg hc] at hst
      simp at hst
    exact pruneInv_step hg hs (hne s hs hpos) hst
  have hst : Stops (pruneStep it fit) { dag := G, model := m, obj := obj', models := [m] } :=
    stops_of_wf (rel := fun a b : Nat => a < b) Nat.lt_wfRel.wf (PruneInv it fit G) (fun s => nnz s.dag) hcont hi
  unfold pruneGraph
  rw [h1]
  simp only [Bool.not_true, Bool.false_eq_true, if_false]
  cases hr : runLoop (pruneStep it fit) { dag := G, model := m, obj := obj', models := [m] } with
  | ok r => exact ⟨_, rfl⟩
  | error err =>
    exfalso
    refine runLoop_error (P := PruneInv it fit G) (Q := fun _ => False) (fun s s' hs h => (hcont s s' hs h).1) ?_ hi hst hr
    intro s err hs h
    obtain ⟨r, hr'⟩ := pruneStep_returns hf hs
    rw [hr'] at h
    simp at h

/-! ## C56 -/

/-- C56: if the model fitted to a non-empty candidate has only zero weights, pruning it never ends: the same graph is scored again
and again. -/
theorem C56_diverges (it : SetIter p) (fit : Fitter p e) (hg : GoodFit fit) (obj : ScoreObj p e) (ho : obj.Ok it fit) (G : Adj p)
    (hG : Nonneg G) (hne : ∃ a b, G a b ≠ 0) (hf : ∀ n, ∃ m s m', fit n G Finset.univ = .ok (m, s) ∧ m.copy it = .ok m')
    (h0 : ∀ n m s, fit n G Finset.univ = .ok (m, s) → m.B = 0) :
    pruneGraph it fit true none obj G = .error .diverge := by
  obtain ⟨⟨m, s⟩, obj', h1⟩ := scoreObj_returns (A := G) (I := Finset.univ) ho hf
  have hi := pruneInv_initial hg ho hG h1
  obtain ⟨n, m0, k1, -, -, k4, -⟩ := (scoreObj_spec ho h1).2.1.fields
  unfold pruneGraph
  rw [h1]
  simp only [Bool.not_true, Bool.false_eq_true, if_false]
  rw [pruneStuck_diverges (pruneInv_stuck hi (by rw [k4]; exact h0 n m0 s k1) ((sumAll_pos_iff hG).2 hne))]

/-- C56: the same if the zero weights appear later, for all subgraphs with a certain positive number of edges. -/
theorem C56_diverges_later (it : SetIter p) (fit : Fitter p e) (hg : GoodFit fit) (obj : ScoreObj p e) (ho : obj.Ok it fit)
    (G : Adj p) (hG : Nonneg G) (hf : FitsReturn it fit G) (k : Nat) (hk : 0 < k) (hkG : k ≤ nnz G)
    (h0 : ∀ n H m s, Subgraph H G → nnz H = k → fit n H Finset.univ = .ok (m, s) → m.B = 0) :
    pruneGraph it fit true none obj G = .error .diverge := by
  cases hr : pruneGraph it fit true none obj G with
  | ok r =>
    exfalso
    obtain ⟨ms, obj'⟩ := r
    obtain ⟨hc, -⟩ := C55_chain it fit hg obj obj' ho G hG ms hr
    obtain ⟨g1, g2, -⟩ := C55_graphs it fit hg G hG ms hc
    have hl := hc.length
    have h1 : ms[nnz G - k]? = some ms[nnz G - k] := List.getElem?_eq_getElem (by omega)
    have h2 : ms[nnz G - k + 1]? = some ms[nnz G - k + 1] := List.getElem?_eq_getElem (by omega)
    obtain ⟨a, b, ⟨h3, -⟩, -⟩ := hc.steps _ _ _ h1 h2
    have hmem := List.mem_of_getElem? h1
    obtain ⟨s, hs⟩ := hc.fitted _ hmem
    obtain ⟨n, m0, k1, -, -, k4, -⟩ := hs.fields
    have := g2 _ _ h1
    have hz := h0 n _ m0 s (g1 _ hmem).2 (by omega) k1
    rw [k4, hz] at h3
    exact h3 rfl
  | error err =>
    unfold pruneGraph at hr
    obtain ⟨⟨m, s⟩, obj', h1⟩ := scoreObj_returns (A := G) (I := Finset.univ) ho (fun n => hf n G hG (fun a b => Or.inl rfl))
    rw [h1] at hr
    simp only [Bool.not_true, Bool.false_eq_true, if_false] at hr
    have hi := pruneInv_initial hg ho hG h1
    split at hr
    · rename_i err' he
      cases hr
      by_cases hst : Stops (pruneStep it fit) { dag := G, model := m, obj := obj', models := [m] }
      · exfalso
        refine runLoop_error (P := fun s => PruneInv it fit G s ∨ PruneStuck it fit s) (Q := fun _ => False) ?_ ?_ (Or.inl hi) hst he
        · intro s s' hs hst
          rcases hs with hs | hs
          · by_cases h0 : s.model.B = 0
            · have hpos : 0 < sumAll s.dag := by
                by_contra hc
                unfold pruneStep at hst
                rw [if_neg hc] at hst
                simp at hst
              obtain ⟨s'', h1, h2⟩ := pruneStuck_step (pruneInv_stuck hs h0 hpos)
              rw [hst] at h1
              cases h1
              exact Or.inr h2
            · exact Or.inl (pruneInv_step hg hs h0 hst).1
          · obtain ⟨s'', h1, h2⟩ := pruneStuck_step hs
            rw [hst] at h1
            cases h1
            exact Or.inr h2
        · intro s err hs h
          rcases hs with hs | hs
          · obtain ⟨r, hr'⟩ := pruneStep_returns hf hs
            rw [hr'] at h
            simp at h
          · obtain ⟨s'', h1, -⟩ := pruneStuck_step hs
            rw [h1] at h
            simp at h
      · rw [runLoop_of_not_stops hst] at he
        cases he
        rfl
    · simp at hr

section Example

/-- A fitting procedure that takes the graph itself as weights. -/
noncomputable def toyFit (it : SetIter p) : Fitter p e := fun _ A _ =>
  match mkModel it A (Matrix.of (fun i j => (A i j : ℝ))) (0 : Matrix (Fin 0) (Fin p) ℝ) (Matrix.of (fun _ _ => 1)) 0 with
  | .error err => .error err
  | .ok m => .ok (⟨0, m⟩, some 0)

theorem toyFit_fields {it : SetIter p} {n : Nat} {A : Adj p} {I : Finset (Fin p)} {m : AnyModel p e} {s : Flt}
    (h : toyFit it n A I = .ok (m, s)) : isDag it A = true ∧ m.A = A ∧ m.B = Matrix.of (fun i j => (A i j : ℝ)) := by
  unfold toyFit at h
  split at h
  · simp at h
  · rename_i m0 h0
    cases h
    obtain ⟨h1, -, rfl⟩ := mkModel_fields h0
    exact ⟨h1, rfl, rfl⟩

theorem toyFit_good (it : SetIter p) : GoodFit (toyFit it : Fitter p e) := by
  intro n A I m s h
  obtain ⟨h1, h2, h3⟩ := toyFit_fields h
  refine ⟨h2, fun hA => (isDag_iff it hA).1 h1, fun a b hab => ?_⟩
  rw [h3]
  simp [hab]

theorem toyFit_ok {it : SetIter p} {A : Adj p} (hA : Nonneg A) (hac : Acyclic A) (n : Nat) (I : Finset (Fin p)) :
    ∃ m s m', (toyFit it : Fitter p e) n A I = .ok (m, s) ∧ m.copy it = .ok m' := by
  have h1 := mkModel_eq_ok (it := it) hA (B := Matrix.of (fun i j => (A i j : ℝ))) (0 : Matrix (Fin 0) (Fin p) ℝ)
    (Matrix.of (fun (_ : Fin e) _ => (1 : ℝ))) 0 hac (by intro a b hab; simp [hab])
  obtain ⟨m, hm⟩ : ∃ m, m = (⟨A, Matrix.of (fun i j => (A i j : ℝ)), (0 : Matrix (Fin 0) (Fin p) ℝ),
    Matrix.of (fun (_ : Fin e) _ => (1 : ℝ)), 0, 1 - (Matrix.of (fun i j => (A i j : ℝ))).transpose⟩ : LModel p 0 e) := ⟨_, rfl⟩
  refine ⟨⟨0, m⟩, some 0, ⟨0, m⟩, by unfold toyFit; rw [h1, hm], ?_⟩
  unfold AnyModel.copy LModel.copy
  rw [hm]
  simp only [h1]

theorem subgraph_acyclic {G H : Adj p} (h : Subgraph H G) (hG : Acyclic G) : Acyclic H := by
  intro i hi
  refine hG i (Relation.TransGen.mono (fun a b (hab : Edge H a b) => ?_) i i hi)
  rcases h a b with h1 | h1
  · unfold Edge at hab ⊢; rw [← h1]; exact hab
  · exact absurd h1 hab

/-- The hypotheses of `C55_chain`, `C55_graphs` and `C55_returns` are met for every DAG by a suitable fitting procedure: pruning
`0 → 1 → 2 ← 0` gives four models. -/
example (it : SetIter 3) : ∃ ms obj', pruneGraph it (toyFit it : Fitter 3 2) true none ⟨0, []⟩ ![![0, 1, 1], ![0, 0, 1], ![0, 0, 0]] =
    .ok (ms, obj') ∧ ms.length = 4 := by
  have hn : Nonneg (![![0, 1, 1], ![0, 0, 1], ![0, 0, 0]] : Adj 3) := by unfold Nonneg; decide
  have hac : Acyclic (![![0, 1, 1], ![0, 0, 1], ![0, 0, 0]] : Adj 3) :=
    (isDag_iff (SetIter.incr 3) hn).1 (by decide)
  obtain ⟨⟨ms, obj'⟩, h⟩ := C55_returns it (toyFit it : Fitter 3 2) (toyFit_good it) ⟨0, []⟩ (ScoreObj.ok_new it _ 0) _ hn
    (fun n H hH hs => toyFit_ok hH (subgraph_acyclic hs hac) n _) (by
      rintro n H m s - - h ⟨a, b, hab⟩ h0
      rw [(toyFit_fields h).2.2] at h0
      have := congrFun (congrFun h0 a) b
      simp at this
      exact hab this)
  refine ⟨ms, obj', h, ?_⟩
  rw [(C55_chain it _ (toyFit_good it) _ _ (ScoreObj.ok_new it _ 0) _ hn ms h).1.length]
  rfl

end Example

/-! C56 does happen with the code's own fitting procedure: two uncorrelated variables and the solver `cvx` (any solver library that
returns the optimum `I - Bᵀ = I` of the convex problem). -/

section Uncorrelated

theorem codeFit_copy {it : SetIter p} {svd : Matrix (Fin p) (Fin p) ℝ → Matrix (Fin p) (Fin p) ℝ × (Fin p → ℝ)} {num : NumLib p e}
    {cfg : ScoreCfg} {u v : Nat → Nat → Nat → Fin (p * p) → ℝ} {d : Data p e} {h n : Nat} {A : Adj p} {I : Finset (Fin p)}
    (hu : cfg.solver = .grad → ∀ n, GoodDraws p (u h n))
    {m : AnyModel p e} {s : Flt} (hm : codeFit it svd num cfg u v d h n A I = .ok (m, s)) : ∃ m', m.copy it = .ok m' := by
  unfold codeFit at hm
  split at hm
  · simp at hm
  · rename_i h0
    cases hm
    obtain ⟨-, -, m', h1⟩ := C45_fitted_model (fun hc => hu hc n) none _ _ h0
    unfold AnyModel.copy
    simp only [h1]
    exact ⟨_, rfl⟩

/-- C56 with the code's own fitting procedure: if the convex solver returns the weights zero (as it must for uncorrelated variables,
see below), then pruning any non-empty DAG never ends; for all positive definite sample covariances and all other settings. -/
theorem C56_uncorrelated (it : SetIter p) (svd : Matrix (Fin p) (Fin p) ℝ → Matrix (Fin p) (Fin p) ℝ × (Fin p → ℝ)) (num : NumLib p e)
    (cfg : ScoreCfg) (u v : Nat → Nat → Nat → Fin (p * p) → ℝ) (d : Data p e) (hd : GoodData d) (h : Nat) (hl : h ≤ p)
    (hcvx : cfg.solver = .cvx) (hnum : ∀ A Ms, num.cvx A Ms d = some 0) (hthr : 0 < cfg.thresholdScore)
    (hpsi : ∀ x, cfg.psiMax = some x → 1 < x) (hit : 0 < cfg.stop.maxIter) (hfl : 0 < cfg.stop.maxFluctuations)
    (G : Adj p) (hG : Nonneg G) (hac : Acyclic G) (hne : ∃ a b, G a b ≠ 0) (n : Nat) :
    pruneGraph it (codeFit it svd num cfg u v d h) true none ⟨n, []⟩ G = .error .diverge := by
  have hu : cfg.solver = .grad → ∀ n, GoodDraws p (u h n) := by rw [hcvx]; simp
  have hp : p ≠ 0 := by
    obtain ⟨a, -⟩ := hne
    intro h0
    exact absurd a.2 (by omega)
  refine C56_diverges it _ (codeFit_good it svd num cfg u v d h hu) _ (ScoreObj.ok_new it _ n) G hG hne ?_ ?_
  · intro k
    obtain ⟨m, s, hm⟩ := C71_score_dag_returns (l := h) it svd num cfg d hd (u h k) (v h k) G hG hac Finset.univ hp hl hcvx
      (fun Ms => ⟨0, hnum G Ms, by simp⟩) hthr hpsi hit hfl
    have hm' : codeFit it svd num cfg u v d h k G Finset.univ = .ok (⟨h, m⟩, some s) := by
      unfold codeFit
      rw [show fitDag it svd (fun I => codeSolvers it num cfg d (u h k) (v h k) I) cfg.stop d G Finset.univ none =
        .ok (m, some s) from hm]
    obtain ⟨m', h'⟩ := codeFit_copy hu hm'
    exact ⟨_, _, m', hm', h'⟩
  · intro k m s hm
    unfold codeFit at hm
    split at hm
    · simp at hm
    · rename_i m1 s1 h0
      cases hm
      obtain ⟨-, m0, h1, h2, -⟩ := fitDag_ok h0
      obtain ⟨j, m', -, hb, -⟩ := alternate_induct h1 (fun _ => True) trivial (fun _ _ _ _ _ => trivial)
      have h10 := (altBody_ok hb).2.2.2.1
      simp only [codeSolvers, hcvx] at h10
      unfold solveForBCvx at h10
      split at h10
      · simp at h10
      · simp only [hnum] at h10
        split_ifs at h10
        simp only [Except.ok.injEq] at h10
        change m1.B = 0
        rw [← h10]
        ext a b
        simp

/-- For uncorrelated variables without latents the weights zero minimise the objective of `_solve_for_B_cvx`, among all weights
without self-loops. -/
theorem C56_zero_optimal (n : Fin e → Nat) (sigma M : Fin e → Fin p → ℝ) (hs : ∀ k i, 0 ≤ sigma k i) (hM : ∀ k i, 0 ≤ M k i)
    (B : Matrix (Fin p) (Fin p) ℝ) (hB : ∀ i, B i i = 0) :
    ∑ k, (n k : ℝ) * (Matrix.diagonal (M k) * ((1 - (0 : Matrix (Fin p) (Fin p) ℝ).transpose) * Matrix.diagonal (sigma k) *
      (1 - (0 : Matrix (Fin p) (Fin p) ℝ).transpose).transpose)).trace ≤
    ∑ k, (n k : ℝ) * (Matrix.diagonal (M k) * ((1 - B.transpose) * Matrix.diagonal (sigma k) * (1 - B.transpose).transpose)).trace := by
  refine Finset.sum_le_sum fun k _ => mul_le_mul_of_nonneg_left ?_ (Nat.cast_nonneg _)
  unfold Matrix.trace
  refine Finset.sum_le_sum fun i _ => ?_
  rw [Matrix.diag_apply, Matrix.diag_apply, Matrix.diagonal_mul, Matrix.diagonal_mul]
  refine mul_le_mul_of_nonneg_left ?_ (hM k i)
  rw [Matrix.transpose_zero, sub_zero, Matrix.transpose_one, Matrix.mul_one, Matrix.one_mul, Matrix.diagonal_apply_eq, Matrix.mul_apply]
  refine le_trans ?_ (Finset.single_le_sum (f := fun j => ((1 - B.transpose) * Matrix.diagonal (sigma k)) i j *
    (1 - B.transpose).transpose j i) (fun j _ => ?_) (Finset.mem_univ i))
  · simp [Matrix.mul_diagonal, hB]
  · simp only [Matrix.mul_diagonal, Matrix.transpose_apply]
    nlinarith [mul_nonneg (hs k j) (mul_self_nonneg ((1 - B.transpose) i j))]

/-- The hypotheses of `C56_uncorrelated` are met. -/
example (it : SetIter 2) (svd : Matrix (Fin 2) (Fin 2) ℝ → Matrix (Fin 2) (Fin 2) ℝ × (Fin 2 → ℝ))
    (u v : Nat → Nat → Nat → Fin (2 * 2) → ℝ) :
    pruneGraph it (codeFit it svd ⟨id, fun _ => true, fun x => x / 2, fun _ _ _ => some 0⟩
      ⟨.cvx, none, false, ⟨1000, 1 / 10 ^ 3, 1 / 10 ^ 5, 5⟩, 1 / 10 ^ 5, 1⟩ u v (⟨fun _ => 1, fun _ => 100⟩ : Data 2 2) 1)
      true none ⟨0, []⟩ ![![0, 1], ![0, 0]] = .error .diverge := by
  have hn : Nonneg (![![0, 1], ![0, 0]] : Adj 2) := by unfold Nonneg; decide
  refine C56_uncorrelated it svd _ _ u v _ ⟨fun k => Matrix.PosDef.one, fun k => by norm_num, by norm_num⟩ 1 (by norm_num) rfl
    (fun _ _ => rfl) (by norm_num) (by simp) (by norm_num) (by norm_num) _ hn ((isDag_iff (SetIter.incr 2) hn).1 (by decide))
    ⟨0, 1, by decide⟩ 0

end Uncorrelated

/-! ## C57 -/

/-- The variance across environments. -/
noncomputable def Spec.popVar (x : Fin e → ℝ) : ℝ := (∑ k, x k ^ 2) / e - ((∑ k, x k) / e) ^ 2

/-- `np.argsort`: a permutation of the indices along which the values do not decrease. -/
def Spec.IsArgsort (f : Fin p → ℝ) (l : List (Fin p)) : Prop := l.Perm (List.finRange p) ∧ l.Pairwise (fun a b => f a ≤ f b)

theorem varEnv_eq (om : Matrix (Fin e) (Fin p) ℝ) (j : Fin p) : varEnv om j = popVar (fun k => om k j) := by
  unfold varEnv popVar
  rcases Nat.eq_zero_or_pos e with rfl | he
  · simp
  · have he' : (e : ℝ) ≠ 0 := by positivity
    have : ∀ c : ℝ, ∑ k, (om k j - c) ^ 2 = ∑ k, om k j ^ 2 - 2 * c * ∑ k, om k j + e * c ^ 2 := by
      intro c
      have : ∀ k, (om k j - c) ^ 2 = om k j ^ 2 - 2 * c * om k j + c ^ 2 := fun k => by ring
      simp only [this, Finset.sum_add_distrib, Finset.sum_sub_distrib, ← Finset.mul_sum, Finset.sum_const, Finset.card_univ,
        Fintype.card_fin, nsmul_eq_mul]
    rw [this]
    field_simp
    ring

theorem pruneILoop_spec {it : SetIter p} {fit : Fitter p e} {graph : Adj p} (order : List (Fin p)) :
    ∀ (I : Finset (Fin p)) (obj obj' : ScoreObj p e) (ms : List (AnyModel p e × Finset (Fin p))), obj.Ok it fit →
      pruneILoop it fit graph order I obj = .ok (ms, obj') →
      obj'.Ok it fit ∧ ms.length = order.length ∧ ∀ i < order.length, ∃ m s, ms[i]? = some (m, I \ (order.take (i + 1)).toFinset) ∧
        FittedTo it fit graph (I \ (order.take (i + 1)).toFinset) m s := by
  induction order with
  | nil =>
    intro I obj obj' ms ho h
    simp only [pruneILoop, Except.ok.injEq, Prod.mk.injEq] at h
    obtain ⟨rfl, rfl⟩ := h
    exact ⟨ho, rfl, by simp⟩
  | cons j order ih =>
    intro I obj obj' ms ho h
    simp only [pruneILoop] at h
    split at h
    · simp at h
    · rename_i m s obj1 h1
      split at h
      · simp at h
      · rename_i ms' obj2 h2
        cases h
        obtain ⟨k1, k2, -⟩ := scoreObj_spec ho h1
        obtain ⟨k3, k4, k5⟩ := ih _ _ _ _ k1 h2
        have hI : I \ {j} = I.erase j := by rw [Finset.sdiff_singleton_eq_erase]
        refine ⟨k3, by simp [k4], ?_⟩
        intro i hi
        cases i with
        | zero =>
          refine ⟨m, s, ?_, ?_⟩
          · simp [hI]
          · simpa [hI] using k2
        | succ i =>
          obtain ⟨m', s', k6, k7⟩ := k5 i (by simpa using hi)
          have hs : I \ ((j :: order).take (i + 1 + 1)).toFinset = I.erase j \ (order.take (i + 1)).toFinset := by
            ext x
            simp only [List.take_succ_cons, List.toFinset_cons, Finset.mem_sdiff, Finset.mem_insert, Finset.mem_erase]
            tauto
          refine ⟨m', s', ?_, ?_⟩
          · rw [hs]; simpa using k6
          · rw [hs]; exact k7

/-- C57: `_prune_I` returns `p + 1` models of the same graph; the `i`-th has as targets all variables but the `i` whose noise
variances vary least across environments in the model fitted with all targets. -/
theorem C57_nested (it : SetIter p) (argsort : (Fin p → ℝ) → List (Fin p)) (harg : ∀ f, IsArgsort f (argsort f)) (fit : Fitter p e)
    (graph : Adj p) (obj obj' : ScoreObj p e) (ho : obj.Ok it fit) (ms : List (AnyModel p e × Finset (Fin p)))
    (h : pruneI it argsort fit none graph obj = .ok (ms, obj')) :
    ∃ (m0 : AnyModel p e) (s0 : Flt) (order : List (Fin p)), FittedTo it fit graph Finset.univ m0 s0 ∧
      ms.head? = some (m0, Finset.univ) ∧
      order.Perm (List.finRange p) ∧ order.Pairwise (fun a b => popVar (fun k => m0.omegas k a) ≤ popVar (fun k => m0.omegas k b)) ∧
      ms.length = p + 1 ∧ ∀ i ≤ p, ∃ m s, ms[i]? = some (m, Finset.univ \ (order.take i).toFinset) ∧
        FittedTo it fit graph (Finset.univ \ (order.take i).toFinset) m s := by
  unfold pruneI at h
  split at h
  · simp at h
  · rename_i m0 s0 obj1 h1
    simp only at h
    split at h
    · simp at h
    · rename_i ms' obj2 h2
      cases h
      obtain ⟨k1, k2, -⟩ := scoreObj_spec ho h1
      obtain ⟨-, k4, k5⟩ := pruneILoop_spec _ _ _ _ _ k1 h2
      obtain ⟨hp, hs⟩ := harg (varEnv m0.omegas)
      have hlen : (argsort (varEnv m0.omegas)).length = p := by rw [hp.length_eq, List.length_finRange]
      refine ⟨m0, s0, argsort (varEnv m0.omegas), k2, rfl, hp, ?_, by simp [k4, hlen], ?_⟩
      · simpa only [varEnv_eq] using hs
      · intro i hi
        cases i with
        | zero => exact ⟨m0, s0, by simp, by simpa using k2⟩
        | succ i =>
          obtain ⟨m, s, k6, k7⟩ := k5 i (by omega)
          exact ⟨m, s, by simpa using k6, k7⟩

/-- C57: hence the sets of targets have `p, p - 1, …, 0` elements and each contains the next one. -/
theorem C57_sizes (order : List (Fin p)) (h : order.Perm (List.finRange p)) (i : Nat) (hi : i ≤ p) :
    (Finset.univ \ (order.take i).toFinset : Finset (Fin p)).card = p - i ∧
      (Finset.univ \ (order.take (i + 1)).toFinset : Finset (Fin p)) ⊆ Finset.univ \ (order.take i).toFinset := by
  have hn : (order.take i).Nodup := ((h.nodup_iff.2 (List.nodup_finRange p))).sublist (List.take_sublist _ _)
  have hl : order.length = p := by rw [h.length_eq, List.length_finRange]
  constructor
  · rw [Finset.card_sdiff_of_subset (Finset.subset_univ _), List.toFinset_card_of_nodup hn, Finset.card_univ, Fintype.card_fin,
      List.length_take, hl, min_eq_left hi]
  · refine Finset.sdiff_subset_sdiff (Finset.Subset.refl _) ?_
    intro x hx
    rw [List.mem_toFinset] at hx ⊢
    exact List.take_subset_take_left _ (Nat.le_succ i) hx

/-- C57, threshold: exactly the variables are kept whose variance exceeds the given fraction of the largest one. -/
theorem C57_threshold (it : SetIter p) (argsort : (Fin p → ℝ) → List (Fin p)) (fit : Fitter p e) (t : ℝ) (graph : Adj p)
    (obj obj' : ScoreObj p e) (ho : obj.Ok it fit) (ms : List (AnyModel p e × Finset (Fin p)))
    (h : pruneI it argsort fit (some t) graph obj = .ok (ms, obj')) :
    ∃ (m0 : AnyModel p e) (s0 : Flt) (M : ℝ) (m : AnyModel p e) (I : Finset (Fin p)) (s : Flt),
      FittedTo it fit graph Finset.univ m0 s0 ∧ IsGreatest (Set.range (fun j => popVar (fun k => m0.omegas k j))) M ∧
      ms = [(m, I)] ∧ (∀ j, j ∈ I ↔ M * t < popVar (fun k => m0.omegas k j)) ∧ FittedTo it fit graph I m s := by
  unfold pruneI at h
  split at h
  · simp at h
  · rename_i m0 s0 obj1 h1
    simp only at h
    split_ifs at h with hp
    split at h
    · simp at h
    · rename_i m s obj2 h2
      cases h
      obtain ⟨k1, k2, -⟩ := scoreObj_spec ho h1
      obtain ⟨-, k3, -⟩ := scoreObj_spec k1 h2
      refine ⟨m0, s0, ⨆ i, varEnv m0.omegas i, m, _, s, k2, ?_, rfl, ?_, k3⟩
      · have : Nonempty (Fin p) := ⟨⟨0, Nat.pos_of_ne_zero hp⟩⟩
        have hfun : (fun j => popVar (fun k => m0.omegas k j)) = varEnv m0.omegas := by
          funext j; rw [varEnv_eq]
        rw [hfun]
        obtain ⟨j, hj⟩ := exists_eq_ciSup_of_finite (f := varEnv m0.omegas)
        refine ⟨⟨j, hj⟩, ?_⟩
        rintro _ ⟨i, rfl⟩
        exact le_ciSup (Set.finite_range _).bddAbove i
      · intro j
        simp only [Finset.mem_filter, Finset.mem_univ, true_and]
        rw [varEnv_eq]

theorem pruneILoop_returns {it : SetIter p} {fit : Fitter p e} {graph : Adj p}
    (hf : ∀ n I, ∃ m s m', fit n graph I = .ok (m, s) ∧ m.copy it = .ok m') (order : List (Fin p)) :
    ∀ (I : Finset (Fin p)) (obj : ScoreObj p e), obj.Ok it fit → ∃ r, pruneILoop it fit graph order I obj = .ok r := by
  induction order with
  | nil => intro I obj _; exact ⟨_, rfl⟩
  | cons j order ih =>
    intro I obj ho
    obtain ⟨⟨m, s⟩, obj1, h1⟩ := scoreObj_returns (A := graph) (I := I.erase j) ho (fun n => hf n _)
    obtain ⟨⟨ms, obj2⟩, h2⟩ := ih (I.erase j) obj1 (scoreObj_spec ho h1).1
    simp only [pruneILoop, h1, h2]
    exact ⟨_, rfl⟩

/-- C57: target pruning always ends; it returns if the fits do. -/
theorem C57_returns (it : SetIter p) (argsort : (Fin p → ℝ) → List (Fin p)) (fit : Fitter p e) (graph : Adj p)
    (obj : ScoreObj p e) (ho : obj.Ok it fit) (hf : ∀ n I, ∃ m s m', fit n graph I = .ok (m, s) ∧ m.copy it = .ok m') :
    ∃ r, pruneI it argsort fit none graph obj = .ok r := by
  obtain ⟨⟨m, s⟩, obj1, h1⟩ := scoreObj_returns (A := graph) (I := Finset.univ) ho (fun n => hf n _)
  obtain ⟨⟨ms, obj2⟩, h2⟩ := pruneILoop_returns hf (argsort (varEnv m.omegas)) Finset.univ obj1 (scoreObj_spec ho h1).1
  unfold pruneI
  simp only [h1, h2]
  exact ⟨_, rfl⟩

section Example

/-- An `argsort`: sorting by insertion. -/
noncomputable def insArgsort (f : Fin p → ℝ) : List (Fin p) := (List.finRange p).insertionSort (fun a b => f a ≤ f b)

theorem insArgsort_spec (f : Fin p → ℝ) : IsArgsort f (insArgsort f) := by
  have : Std.Total (fun a b : Fin p => f a ≤ f b) := ⟨fun a b => le_total _ _⟩
  have : IsTrans (Fin p) (fun a b : Fin p => f a ≤ f b) := ⟨fun a b c => le_trans⟩
  exact ⟨List.perm_insertionSort _ _, List.pairwise_insertionSort _ _⟩

example (it : SetIter 3) : ∃ ms obj', pruneI it insArgsort (toyFit it : Fitter 3 2) none ![![0, 1, 1], ![0, 0, 1], ![0, 0, 0]] ⟨0, []⟩ =
    .ok (ms, obj') ∧ ms.length = 4 := by
  have hn : Nonneg (![![0, 1, 1], ![0, 0, 1], ![0, 0, 0]] : Adj 3) := by unfold Nonneg; decide
  have hac : Acyclic (![![0, 1, 1], ![0, 0, 1], ![0, 0, 0]] : Adj 3) := (isDag_iff (SetIter.incr 3) hn).1 (by decide)
  obtain ⟨⟨ms, obj'⟩, h⟩ := C57_returns it insArgsort (toyFit it : Fitter 3 2) _ ⟨0, []⟩ (ScoreObj.ok_new it _ 0)
    (fun n I => toyFit_ok hn hac n I)
  obtain ⟨m0, s0, order, -, -, -, -, h1, -⟩ := C57_nested it insArgsort insArgsort_spec _ _ _ obj' (ScoreObj.ok_new it _ 0) ms h
  exact ⟨ms, obj', h, h1⟩

end Example

end Verif
