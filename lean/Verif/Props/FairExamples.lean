import Verif.Props.Fair
import Mathlib.MeasureTheory.Measure.Count

/-!
# Examples for C128
-/

namespace Verif

open Spec Matrix MeasureTheory ProbabilityTheory

/-! ### Fair generators exist -/

/-- A generator that moves lists with `N` elements as the permutation says. -/
def permRng {N : ℕ} (s : Equiv.Perm (Fin N)) : Rng where
  shuffle l := if h : l.length = N then (List.finRange N).map fun t => l.get ((s t).cast h.symm) else l
  shuffle_perm {α} l := by
    split_ifs with h
    · subst h
      have h1 : ((List.finRange l.length).map fun t => l.get ((s t).cast rfl)) = ((List.finRange l.length).map s).map l.get := by
        rw [List.map_map]; rfl
      have h2 : l = (List.finRange l.length).map l.get := by simp
      rw [h1]
      conv_rhs => rw [h2]
      refine List.Perm.map _ ?_
      refine (List.perm_ext_iff_of_nodup ((List.nodup_finRange _).map s.injective) (List.nodup_finRange _)).2 fun a => ?_
      simp only [List.mem_map, List.mem_finRange, true_and, iff_true]
      exact ⟨s.symm a, by simp⟩
    · exact List.Perm.refl l
  choice l n := l.take n
  choice_length l n h := by simp; omega
  choice_subperm l n _ := (List.take_sublist n l).subperm

/-- A generator that draws from lists with `N` elements those at the places in `f`. -/
def embRng {N n : ℕ} (f : Fin n ↪ Fin N) : Rng where
  shuffle l := l
  shuffle_perm l := List.Perm.refl l
  choice l k := if h : l.length = N ∧ k = n then List.ofFn fun t : Fin n => l.get ((f t).cast h.1.symm) else l.take k
  choice_length l k hk := by
    split_ifs with h
    · simp [h.2]
    · simp; omega
  choice_subperm {α} l k hk := by
    split_ifs with h
    · obtain ⟨h1, h2⟩ := h
      subst h1
      have e1 : (List.ofFn fun t : Fin n => l.get ((f t).cast rfl)) = (List.ofFn f).map l.get := by
        rw [List.map_ofFn]; rfl
      have e2 : l = (List.finRange l.length).map l.get := by simp
      rw [e1]
      conv_rhs => rw [e2]
      obtain ⟨l', h3, h4⟩ := (List.nodup_ofFn.2 f.injective).subperm (l₂ := List.finRange l.length) fun a _ => List.mem_finRange a
      exact ⟨l'.map l.get, h3.map _, h4.map _⟩
    · exact (List.take_sublist k l).subperm

/-- Every element of a finite space is equally likely. -/
noncomputable def equallyLikely (Ω : Type) [Fintype Ω] [MeasurableSpace Ω] : Measure Ω := (Fintype.card Ω : ENNReal)⁻¹ • Measure.count

theorem equallyLikely_apply {Ω : Type} [Fintype Ω] [MeasurableSpace Ω] [MeasurableSingletonClass Ω] {s : Set Ω} {a : Ω} (h : s = {a}) :
    equallyLikely Ω s = (Fintype.card Ω : ENNReal)⁻¹ := by
  rw [h, equallyLikely]
  simp

theorem equallyLikely_prob (Ω : Type) [Fintype Ω] [Nonempty Ω] [MeasurableSpace Ω] [MeasurableSingletonClass Ω] : IsProbabilityMeasure (equallyLikely Ω) := by
  constructor
  rw [equallyLikely]
  simp only [Measure.smul_apply, smul_eq_mul]
  rw [Measure.count_apply MeasurableSet.univ]
  simp only [Set.encard_univ, ENat.card_eq_coe_fintype_card]
  exact ENNReal.inv_mul_cancel (by simp) (by simp)

instance permSpace (N : ℕ) : MeasurableSpace (Equiv.Perm (Fin N)) := ⊤

instance embSpace (n N : ℕ) : MeasurableSpace (Fin n ↪ Fin N) := ⊤

theorem fair_permRng (N : ℕ) : FairShuffle (equallyLikely (Equiv.Perm (Fin N))) permRng N := by
  have hsh : ∀ s : Equiv.Perm (Fin N), (permRng s).shuffle (List.finRange N) = (List.finRange N).map s := by
    intro s
    simp [permRng]
  refine ⟨fun s => ?_, fun l => MeasurableSpace.measurableSet_top, fun s => ?_⟩
  · intro α β f l
    simp only [permRng, List.length_map]
    split_ifs with h
    · simp
    · rfl
  · have : {ω : Equiv.Perm (Fin N) | (permRng ω).shuffle (List.finRange N) = (List.finRange N).map s} = {s} := by
      ext ω
      simp only [hsh, Set.mem_ofPred_eq, Set.mem_singleton_iff]
      exact ⟨finRange_map_inj, fun h => by rw [h]⟩
    rw [equallyLikely_apply this, Fintype.card_perm, Fintype.card_fin]

theorem fair_embRng (N n : ℕ) : FairChoice (equallyLikely (Fin n ↪ Fin N)) embRng N n := by
  have hch : ∀ f : Fin n ↪ Fin N, (embRng f).choice (List.finRange N) n = List.ofFn f := by
    intro f
    simp [embRng]
  refine ⟨fun f α β g l => ?_, fun l => MeasurableSpace.measurableSet_top, fun l hl hn => ?_⟩
  · simp only [embRng, List.length_map]
    split_ifs with h
    · rw [List.map_ofFn]
      congr 1
      funext t
      simp
    · simp
  · subst hn
    have : {ω : Fin l.length ↪ Fin N | (embRng ω).choice (List.finRange N) l.length = l} = {⟨l.get, List.nodup_iff_injective_get.1 hl⟩} := by
      ext ω
      simp only [hch, Set.mem_ofPred_eq, Set.mem_singleton_iff]
      constructor
      · intro h
        ext t : 1
        have h2 : List.ofFn ω = List.ofFn l.get := by rw [h, List.ofFn_get]
        exact congrFun (List.ofFn_injective h2) t
      · intro h
        rw [h]
        exact List.ofFn_get l
    rw [equallyLikely_apply this, Fintype.card_embedding_eq, Fintype.card_fin, Fintype.card_fin]

/-- Four observations of one variable, split in halves: the expected variance of the first half is the variance of all four. -/
example : ∃ folds : Equiv.Perm (Fin 4) → List (List (Sample 1)),
    (∀ ω, splitData (fun _ => permRng ω) [[![0], ![1], ![5], ![2]]] [1 / 2, 1 / 2] = .ok (folds ω)) ∧
      ∀ i j, ∫ ω, npCov (((folds ω).getD 0 []).getD 0 []) i j ∂(equallyLikely (Equiv.Perm (Fin 4))) = npCov [![0], ![1], ![5], ![2]] i j := by
  have := equallyLikely_prob (Equiv.Perm (Fin 4))
  obtain ⟨folds, h1, h2⟩ := C128_folds_unbiased (fun (ω : Equiv.Perm (Fin 4)) _ => permRng ω) [([![0], ![1], ![5], ![2]] : Sample 1)] [1 / 2, 1 / 2]
    (by norm_num) (by norm_num) 0 _ rfl (fair_permRng 4)
  refine ⟨folds, h1, h2 0 1 ?_⟩
  obtain ⟨g, g1, _, _, g4⟩ := splitData_ok (fun _ => permRng 1) [([![0], ![1], ![5], ![2]] : Sample 1)] [1 / 2, 1 / 2] (by norm_num) (by norm_num)
  have hg : folds 1 = g := by
    have := (h1 1).symm.trans g1
    injection this
  have h3 := g4 0 _ rfl
  have h4 : ((g.getD 0 []).getD 0 []) = (foldsOf g 0).getD 0 [] := by
    unfold foldsOf
    simp only [List.getD_eq_getElem?_getD, List.getElem?_map]
    cases g[0]? <;> simp
  have hr : pyRound 2 = 2 := by norm_num [pyRound]
  rw [hg, h4, h3]
  simp only [List.map_cons, List.map_nil, List.length_cons, List.length_nil, pieces, List.getD_cons_zero, List.length_take, ((permRng 1).shuffle_perm _).length_eq]
  norm_num [hr]

/-- Each pair of five variables is returned with probability one tenth. -/
example (T : Finset (Fin 5)) (hT : T.card = 2) :
    equallyLikely (Fin 2 ↪ Fin 5) {ω | interventionTargets (embRng ω) (fun lo _ => lo) 5 (.int 2) = .ok T} = 10⁻¹ := by
  have h := (C128_targets_fair embRng (fun lo _ => lo) 2 (by norm_num) (fair_embRng 5 2)).1 T hT
  rw [show (Nat.choose 5 2) = 10 from rfl] at h
  exact_mod_cast h

/-- Each of the three edges of `0 → 1 → 2`, `0 → 2` is removed with probability one third. -/
example : equallyLikely (Fin 1 ↪ Fin 3) {ω | ∃ R, removeEdges (embRng ω) (![![0, 1, 1], ![0, 0, 1], ![0, 0, 0]] : Adj 3) 1 = .ok R ∧
    ∀ i j, Edge R i j ↔ Edge (![![0, 1, 1], ![0, 0, 1], ![0, 0, 0]] : Adj 3) i j ∧ (i, j) ∉ ({(0, 2)} : Finset (Fin 3 × Fin 3))} = 3⁻¹ := by
  have hE : Spec.dirEdges (![![0, 1, 1], ![0, 0, 1], ![0, 0, 0]] : Adj 3) = {(0, 1), (0, 2), (1, 2)} := by
    ext ⟨i, j⟩
    unfold Spec.dirEdges DirEdge
    fin_cases i <;> fin_cases j <;> simp
  have hc : (Spec.dirEdges (![![0, 1, 1], ![0, 0, 1], ![0, 0, 0]] : Adj 3)).card = 3 := by rw [hE]; rfl
  have h := C128_subgraphs_fair (μ := equallyLikely (Fin 1 ↪ Fin 3)) embRng (![![0, 1, 1], ![0, 0, 1], ![0, 0, 0]] : Adj 3) 1
    (by rw [hc]; exact fair_embRng 3 1) {(0, 2)} (by rw [hE]; simp) rfl
  rw [hc, show (Nat.choose 3 1) = 3 from rfl] at h
  exact_mod_cast h

end Verif
