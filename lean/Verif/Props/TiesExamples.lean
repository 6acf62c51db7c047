import Verif.Props.Ties
import Verif.Props.ConsistencyExamples

/-!
# Cases that meet the hypotheses of C126
-/

namespace Verif

open Spec Matrix

theorem exBlock_split_one : splitData (fun _ => Rng.front) (List.ofFn fun _ : Fin 1 => exBlock 1 ++ exBlock 1 ++ exBlock 1)
    [1 / 3, 1 / 3, 1 / 3] = .ok [[exBlock 1], [exBlock 1], [exBlock 1]] := by
  have r1 : pyRound (4 : Rat) = 4 := pyRound_int 4
  have b0 : sliceBound 12 0 = 0 := by decide
  have b1 : sliceBound 12 4 = 4 := by decide
  have b2 : sliceBound 12 8 = 8 := by decide
  have b3 : sliceBound 12 12 = 12 := by decide
  have hr : List.range 3 = [0, 1, 2] := by decide
  unfold splitData
  rw [if_neg (by norm_num)]
  simp [splitSample, pySlice, List.zipIdx, Rng.front, exBlock]
  norm_num [r1, b0, b1, b2, b3, hr]

theorem exBlock_good : GoodData (foldData npCov [exBlock 1] 1) := by
  refine ⟨fun k => ?_, fun k => ?_, one_pos⟩
  · have : (foldData npCov [exBlock 1] 1).covs k = npCov (exBlock 1) := by
      rw [Subsingleton.elim k 0]
      rfl
    rw [this, exBlock_cov]
    refine Matrix.PosDef.of_dotProduct_mulVec_pos ?_ ?_
    · ext i j
      fin_cases i <;> fin_cases j <;> simp
    · intro x hx
      have : x 0 ≠ 0 ∨ x 1 ≠ 0 := by
        by_contra hc
        push Not at hc
        exact hx (by funext i; fin_cases i <;> simp [hc.1, hc.2])
      simp [dotProduct, Fin.sum_univ_two, Matrix.mulVec]
      rcases this with h | h
      · nlinarith [sq_nonneg (x 0 + 2 * x 1), pow_pos (abs_pos.2 h) 2, sq_abs (x 0)]
      · nlinarith [sq_nonneg (x 0 + x 1), pow_pos (abs_pos.2 h) 2, sq_abs (x 1)]
  · rw [Subsingleton.elim k 0]
    show 0 < (exBlock 1).length
    decide

/-- Both orders of the two graphs over two variables: the returned graph is the first one. -/
example : ∃ E : FitEnv 2 1, CodeEnv E ∧ ∀ G H : Adj 2, (G = ![![0, 1], ![0, 0]] ∧ H = ![![0, 0], ![1, 0]]) ∨ (G = ![![0, 0], ![1, 0]] ∧ H = ![![0, 1], ![0, 0]]) →
    ∃ P I m, equivalenceClass E [G, H] (fun _ => exBlock 1 ++ exBlock 1 ++ exBlock 1) true false (some [0]) [1 / 3, 1 / 3, 1 / 3] 42 = .ok (P, I, m) ∧
      m.A = G := by
  obtain ⟨num, cfg, h, rfl⟩ := exactLibs_exists (p := 2)
  let E : FitEnv 2 1 := ⟨SetIter.incr 2, fun _ _ => Rng.front, npCov, insArgsort, fun _ => [], fun _ => 0,
    codeFit (SetIter.incr 2) (fun _ => (0, 0)) num ⟨.cvx, none, false, ⟨1000, 1 / 1000, 1 / 100000, 10⟩, 1 / 100000, 10⟩ (fun _ _ _ => 0) (fun _ _ _ => 0)⟩
  have hE : CodeEnv E := ⟨rfl, insArgsort_spec, _, num, _, _, _, rfl, h, by norm_num, by simp, by norm_num, by norm_num⟩
  refine ⟨E, hE, fun G H hGH => ?_⟩
  have hn1 : Nonneg (![![0, 0], ![1, 0]] : Adj 2) := by unfold Nonneg; decide
  have hn2 : Nonneg (![![0, 1], ![0, 0]] : Adj 2) := by unfold Nonneg; decide
  have ha1 : Acyclic (![![0, 0], ![1, 0]] : Adj 2) := (isDag_iff (SetIter.incr 2) hn1).1 (by decide)
  have ha2 : Acyclic (![![0, 1], ![0, 0]] : Adj 2) := (isDag_iff (SetIter.incr 2) hn2).1 (by decide)
  have hG : ∀ K ∈ [G, H], Nonneg K ∧ Acyclic K := by
    intro K hK
    simp only [List.mem_cons, List.not_mem_nil, or_false] at hK
    rcases hGH with ⟨rfl, rfl⟩ | ⟨rfl, rfl⟩ <;> rcases hK with rfl | rfl <;> first | exact ⟨hn1, ha1⟩ | exact ⟨hn2, ha2⟩
  have hme : MarkovEquiv (![![0, 0], ![1, 0]] : Adj 2) ![![0, 1], ![0, 0]] := by
    constructor
    · intro i j
      unfold Adjacent
      fin_cases i <;> fin_cases j <;> simp
    · intro i c j
      unfold VStructure DirEdge
      fin_cases i <;> fin_cases c <;> fin_cases j <;> simp [Adjacent, Edge]
  have hcl : ∀ K ∈ [G, H], ∀ L ∈ [G, H], MarkovEquiv K L := by
    intro K hK L hL
    simp only [List.mem_cons, List.not_mem_nil, or_false] at hK hL
    have hr : ∀ A : Adj 2, MarkovEquiv A A := fun A => ⟨fun _ _ => Iff.rfl, fun _ _ _ => Iff.rfl⟩
    rcases hGH with ⟨rfl, rfl⟩ | ⟨rfl, rfl⟩ <;> rcases hK with rfl | rfl <;> rcases hL with rfl | rfl <;>
      first | exact hr _ | exact hme | exact markov_symm hme
  obtain ⟨⟨P, I, m⟩, hr⟩ := C72_cvx E _ num _ _ _ rfl (by norm_num) [G, H] (by simp) hG (fun _ => exBlock 1 ++ exBlock 1 ++ exBlock 1) false [0] (by simp) (by simp)
    [1 / 3, 1 / 3, 1 / 3] 42 _ _ _ exBlock_split_one (by simp [exBlock]) (by
      intro f hf
      simp only [List.mem_cons, List.not_mem_nil, or_false, or_self] at hf
      subst hf
      exact exBlock_good) insArgsort_spec rfl (fun A => cvxFeasible_of_optimal ((h _).opt A)) (by norm_num) (by simp) (by norm_num) (by norm_num) (by simp)
  refine ⟨P, I, m, hr, ?_⟩
  have := (C126_class E hE [G, H] hG hcl _ true false _ 42 _ _ _ exBlock_split_one exBlock_good exBlock_good P I m hr).1 rfl
  simpa using this.symm

end Verif
