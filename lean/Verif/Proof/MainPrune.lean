import Verif.Proof.Main
import Verif.Spec.Graph

/-! # The pruning loops -/

namespace Verif

open Spec

variable {p e : Nat}

/-! ### Specification -/

/-- What is used of the fitting procedure: models have the given graph, which is a DAG, and their weights respect it. -/
def Spec.GoodFit (fit : Fitter p e) : Prop :=
  ∀ n A I m s, fit n A I = .ok (m, s) → m.A = A ∧ (Nonneg A → Acyclic A) ∧ ∀ a b, A a b = 0 → m.B a b = 0

/-- `H` results from `G` by removing the edge `a → b`. -/
def Spec.RemovesEdge (G H : Adj p) (a b : Fin p) : Prop :=
  G a b ≠ 0 ∧ H a b = 0 ∧ ∀ c d, ¬ (c = a ∧ d = b) → H c d = G c d

/-- `a → b` has the smallest non-zero absolute weight. -/
def Spec.IsWeakest (B : Matrix (Fin p) (Fin p) ℝ) (a b : Fin p) : Prop := B a b ≠ 0 ∧ ∀ c d, B c d ≠ 0 → |B a b| ≤ |B c d|

/-- Consecutive models: the graph loses the weakest edge of the model. -/
def Spec.PruneStep (m m' : AnyModel p e) : Prop := ∃ a b, IsWeakest m.B a b ∧ RemovesEdge m.A m'.A a b

/-- `H` is obtained from `G` by deleting edges. -/
def Spec.Subgraph (H G : Adj p) : Prop := ∀ a b, H a b = G a b ∨ H a b = 0

/-! ### Lemmas -/

theorem setEntry_nonneg {A : Adj p} (h : Nonneg A) (a b : Fin p) : Nonneg (setEntry A a b 0) := by
  intro c d
  unfold setEntry
  split
  · exact le_refl _
  · exact h c d

theorem removesEdge_setEntry {A : Adj p} {a b : Fin p} (h : A a b ≠ 0) : RemovesEdge A (setEntry A a b 0) a b := by
  refine ⟨h, by simp [setEntry], fun c d hcd => ?_⟩
  unfold setEntry
  rw [if_neg hcd]

theorem setEntry_zero_self {A : Adj p} {a b : Fin p} (h : A a b = 0) : setEntry A a b 0 = A := by
  funext c d
  unfold setEntry
  split
  · rename_i hcd; rw [hcd.1, hcd.2, h]
  · rfl

theorem acyclic_diag {A : Adj p} (h : Acyclic A) (a : Fin p) : A a a = 0 := by
  by_contra hc
  exact h a (Relation.TransGen.single hc)

theorem Spec.FittedTo.good {it : SetIter p} {fit : Fitter p e} (hg : GoodFit fit) {A : Adj p} {I : Finset (Fin p)} {m : AnyModel p e}
    {s : Flt} (h : FittedTo it fit A I m s) : m.A = A ∧ (Nonneg A → Acyclic A) ∧ ∀ a b, A a b = 0 → m.B a b = 0 := by
  obtain ⟨n, m0, h1, -, h3, h4, -⟩ := h.fields
  rw [h3, h4]
  exact hg _ _ _ _ _ h1

/-- The state of the loop while every removed edge was an edge of the graph. -/
structure PruneInv (it : SetIter p) (fit : Fitter p e) (G : Adj p) (s : PruneState p e) : Prop where
  obj : s.obj.Ok it fit
  nonneg : Nonneg s.dag
  cached : ∃ en ∈ s.obj.cache, IsKey s.dag Finset.univ en ∧ en.model.B = s.model.B
  dag : s.model.A = s.dag
  respects : ∀ a b, s.dag a b = 0 → s.model.B a b = 0
  acyclic : Acyclic s.dag
  sub : Subgraph s.dag G
  len : s.models.length + nnz s.dag = nnz G + 1
  head : ∃ m, s.models.head? = some m ∧ m.A = G
  last : s.models.getLast? = some s.model
  chain : s.models.IsChain PruneStep
  fitted : ∀ m ∈ s.models, ∃ sc, FittedTo it fit m.A Finset.univ m sc

/-- The state of the loop after a model with zero weights was fitted for a non-empty graph. -/
structure PruneStuck (it : SetIter p) (fit : Fitter p e) (s : PruneState p e) : Prop where
  obj : s.obj.Ok it fit
  cached : ∃ en ∈ s.obj.cache, IsKey s.dag Finset.univ en ∧ en.model.B = 0
  zero : s.model.B = 0
  pos : 0 < sumAll s.dag
  diag : ∀ a, s.dag a a = 0

theorem pruneStuck_step {it : SetIter p} {fit : Fitter p e} {s : PruneState p e} (h : PruneStuck it fit s) :
    ∃ s', pruneStep it fit s = .ok (.inl s') ∧ PruneStuck it fit s' := by
  have hp : 0 < p := by
    rcases Nat.eq_zero_or_pos p with h0 | h0
    · exfalso
      have := h.pos
      subst h0
      simp [sumAll] at this
    · exact h0
  obtain ⟨en, h1, h2, h3⟩ := h.cached
  have hd : setEntry s.dag ⟨0, hp⟩ ⟨0, hp⟩ 0 = s.dag := setEntry_zero_self (h.diag _)
  unfold pruneStep
  rw [if_pos h.pos, h.zero, weakestEdge_zero hp]
  simp only [hd]
  rw [scoreObj_hit h.obj h1 h2]
  exact ⟨_, rfl, ⟨h.obj, ⟨en, h1, h2, h3⟩, h3, h.pos, h.diag⟩⟩

theorem pruneStuck_diverges {it : SetIter p} {fit : Fitter p e} {s : PruneState p e} (h : PruneStuck it fit s) :
    runLoop (pruneStep it fit) s = .error .diverge :=
  runLoop_diverges (PruneStuck it fit) (fun _ hs => pruneStuck_step hs) h

theorem pruneInv_stuck {it : SetIter p} {fit : Fitter p e} {G : Adj p} {s : PruneState p e} (h : PruneInv it fit G s)
    (h0 : s.model.B = 0) (hpos : 0 < sumAll s.dag) : PruneStuck it fit s := by
  obtain ⟨en, h1, h2, h3⟩ := h.cached
  exact ⟨h.obj, ⟨en, h1, h2, by rw [h3, h0]⟩, h0, hpos, acyclic_diag h.acyclic⟩

theorem isChain_append_singleton {α : Type} {R : α → α → Prop} {l : List α} {x y : α} (h : l.IsChain R) (hl : l.getLast? = some x)
    (hxy : R x y) : (l ++ [y]).IsChain R := by
  rw [List.isChain_append]
  refine ⟨h, by simp, ?_⟩
  intro a ha b hb
  rw [hl] at ha
  simp at ha hb
  subst ha hb
  exact hxy

/-- A step from a regular state with non-zero weights. -/
theorem pruneInv_step {it : SetIter p} {fit : Fitter p e} (hg : GoodFit fit) {G : Adj p} {s s' : PruneState p e}
    (h : PruneInv it fit G s) (h0 : s.model.B ≠ 0) (hs : pruneStep it fit s = .ok (.inl s')) :
    PruneInv it fit G s' ∧ nnz s'.dag < nnz s.dag := by
  obtain ⟨a, b, h1, h2, h3⟩ := weakestEdge_spec h0
  unfold pruneStep at hs
  split at hs
  case isFalse => simp at hs
  case isTrue hpos =>
    rw [h1] at hs
    simp only [] at hs
    split at hs
    · simp at hs
    · rename_i m sc obj hobj
      cases hs
      have hab : s.dag a b ≠ 0 := fun hc => h2 (h.respects a b hc)
      obtain ⟨g1, g2, g3⟩ := scoreObj_spec h.obj hobj
      obtain ⟨g4, g5, g6⟩ := g2.good hg
      have hn := nnz_setEntry_zero hab
      refine ⟨⟨g1, setEntry_nonneg h.nonneg a b, g3, g4, g6, g5 (setEntry_nonneg h.nonneg a b), ?_, ?_, ?_, ?_, ?_, ?_⟩, ?_⟩
      · intro c d
        simp only [setEntry]
        split
        · exact Or.inr rfl
        · exact h.sub c d
      · have := h.len
        simp only [List.length_append, List.length_singleton]
        omega
      · obtain ⟨m0, k1, k2⟩ := h.head
        refine ⟨m0, ?_, k2⟩
        simp only [List.head?_append, k1]
        rfl
      · simp
      · refine isChain_append_singleton h.chain h.last ⟨a, b, ⟨h2, h3⟩, ?_⟩
        rw [h.dag, g4]
        exact removesEdge_setEntry hab
      · intro m' hm'
        rcases List.mem_append.1 hm' with hm' | hm'
        · exact h.fitted m' hm'
        · rw [List.mem_singleton.1 hm', g4]
          exact ⟨sc, g2⟩
      · simp only
        omega

theorem pruneStep_exit {it : SetIter p} {fit : Fitter p e} {s r : PruneState p e} (hs : pruneStep it fit s = .ok (.inr r)) :
    r = s ∧ ¬ 0 < sumAll s.dag := by
  unfold pruneStep at hs
  split at hs
  · split at hs
    · simp at hs
    · simp only [] at hs
      split at hs <;> simp at hs
  · rename_i h
    simp only [Except.ok.injEq, Sum.inr.injEq] at hs
    exact ⟨hs.symm, h⟩

/-- A loop that returns went through regular states only. -/
theorem pruneLoop_ok {it : SetIter p} {fit : Fitter p e} (hg : GoodFit fit) {G : Adj p} {s r : PruneState p e}
    (h : PruneInv it fit G s) (hr : runLoop (pruneStep it fit) s = .ok r) :
    PruneInv it fit G r ∧ ∀ a b, r.dag a b = 0 := by
  refine runLoop_ok (P := fun s => PruneInv it fit G s ∨ PruneStuck it fit s)
    (Q := fun r => PruneInv it fit G r ∧ ∀ a b, r.dag a b = 0) ?_ ?_ (Or.inl h) hr
  · intro s s' hs hst
    rcases hs with hs | hs
    · by_cases h0 : s.model.B = 0
      · have hpos : 0 < sumAll s.dag := by
          by_contra hc
          unfold pruneStep at hst
          rw [if_neg hc] at hst
          simp at hst
        obtain ⟨s'', h1, h2⟩ := pruneStuck_step (pruneInv_stuck hs h0 hpos)
        rw [hst] at h1
        cases h1
        exact Or.inr h2
      · exact Or.inl (pruneInv_step hg hs h0 hst).1
    · obtain ⟨s'', h1, h2⟩ := pruneStuck_step hs
      rw [hst] at h1
      cases h1
      exact Or.inr h2
  · intro s r hs hst
    obtain ⟨rfl, hpos⟩ := pruneStep_exit hst
    rcases hs with hs | hs
    · refine ⟨hs, ?_⟩
      by_contra hc
      push Not at hc
      exact hpos ((sumAll_pos_iff hs.nonneg).2 hc)
    · exact absurd hs.pos hpos

end Verif
