import Verif.Props.RobustExamples
import Verif.Props.LastEnvProb

/-!
# Any number of latents

C123: the selection of graphs with almost optimal fits of any kind is consistent for one environment, whatever the numbers of latents (the fits of
C120 are those of the code without latents).  For too many latents this says nothing, see `C101_one_environment_latents`.
-/

namespace Verif

open Matrix Spec MeasureTheory Filter Topology

variable {p l e : Nat}

/-! ## Consistency -/

/-- C123: one environment, any numbers of latents, fits that are within `δ` of the best documented score on the training data, however they are found,
and with or without pruning.  If some candidate with one of the numbers of latents approximates the true covariance, then the probability that
`equivalence_class` returns a model whose graph, targets and number of latents do not, tends to zero with the number of observations. -/
theorem C123_consistent (candidates : List (Adj p)) (hG : ∀ G ∈ candidates, Nonneg G) (ns : List Nat) (C : Matrix (Fin p) (Fin p) ℝ) (hC : C.PosDef)
    (G : Adj p) (hGm : G ∈ candidates) (h0 : Nat) (hh0 : h0 ∈ ns) (happ : Approximates h0 Finset.univ G fun _ : Fin 1 => C) :
    ∃ δ > 0, ∀ (E : FitEnv p 1) (solverKnown pruneEdges : Bool) {a b c : Rat} (rs : Int) {Ω : Type} [MeasurableSpace Ω] (μ : Measure Ω)
      [IsProbabilityMeasure μ] (X : ℕ → Ω → Fin p → ℝ), E.cov = npCov → (∀ d h, GoodFit (E.fit d h)) →
      (∀ d h n A I m s, E.fit d h n A I = .ok (m, s) → m.1 = h) → (∀ f, IsArgsort f (E.argsort f)) → (∀ k, Blind (E.rng 42 k)) →
      (∀ d h, GoodData d → AlmostOptimal δ E.it h d (E.fit d h)) → 0 < a → 0 < b → 0 < c → a + b + c = 1 → Iid μ X C →
      Tendsto (fun n => μ {ω | ∃ P I m, equivalenceClass E candidates (fun _ => rowsOf X (List.range n) ω) solverKnown pruneEdges (some ns) [a, b, c] rs =
        .ok (P, I, m) ∧ ¬ Approximates m.1 I m.A fun _ : Fin 1 => C}) atTop (𝓝 0) := by
  obtain ⟨δ, hδ, h1⟩ := returned_balanced candidates hG ns (fun _ : Fin 1 => C) (fun _ => hC) one_pos (ρ := 1) one_pos
  refine ⟨δ, hδ, ?_⟩
  intro E solverKnown pruneEdges a b c rs Ω _ μ _ X hcov hfit hlat harg hblind hopt ha hb hc hs hX
  have key := runs_close (μ := μ) (X := fun _ : Fin 1 => X) (C := fun _ => C) (fun _ => hX) (fun _ => hC) (rng := E.rng 42) hblind ha hb hc hs (ρ := 1) one_pos
    (k0 := 0) (N := fun n _ => n) ⟨fun _ => tendsto_id, fun n => by simp⟩ hδ
    (Q := fun n ω => ∀ P I m, equivalenceClass E candidates (fun _ => rowsOf X (List.range n) ω) solverKnown pruneEdges (some ns) [a, b, c] rs =
        .ok (P, I, m) → Approximates m.1 I m.A fun _ : Fin 1 => C) ?_
  · refine key.congr fun n => ?_
    congr 1
    ext ω
    simp only [Set.mem_ofPred_eq]
    push Not
    rfl
  · intro n ω training testG testI hsplit _ hpos _ _ _ hcl P I m hr
    refine h1 E _ solverKnown pruneEdges _ rs training testG testI G h0 P I m hfit hlat harg hsplit (fun f hf => balanced_one (hpos f hf 0))
      (fun f hf => by rw [hcov]; exact hcl f hf) (fun h _ => hopt _ h ⟨fun k => ?_, fun k => hpos training (by simp) k, one_pos⟩) hGm hh0 happ hr
    change (E.cov (training.getD k [])).PosDef
    rw [hcov]
    exact (hcl training (by simp)).1 k

/-! ## A case -/

/-- Almost optimal fits of any number of latents, to the covariances that the code computes. -/
noncomputable def idealEnv (p : Nat) (δ : ℝ) : FitEnv p 1 where
  it := SetIter.incr p
  rng := fun _ _ => Rng.front
  cov := npCov
  argsort := insArgsort
  svals := fun _ => []
  gesFit := fun _ => fun i j => if i = j then 0 else 1
  fit := fun d h => nearFit δ (SetIter.incr p) d h

theorem idealEnv_returns {δ : ℝ} (hδ : 0 < δ) (candidates : List (Adj p)) (hne : candidates ≠ []) (hG : ∀ G ∈ candidates, Nonneg G ∧ Acyclic G)
    (data : Fin 1 → Sample p) (ns : List Nat) (hns : ns ≠ []) (folds : List Rat) (rs : Int) (training testG testI : List (Sample p))
    (hsplit : splitData ((idealEnv p δ).rng 42) (List.ofFn data) folds = .ok [training, testG, testI]) (hsize : ∀ s ∈ training, s.length ≠ 1)
    (hgood : ∀ f ∈ [training, testG, testI], GoodData (foldData npCov f 1)) :
    ∃ r, equivalenceClass (idealEnv p δ) candidates data true false (some ns) folds rs = .ok r := by
  refine C72_returns (idealEnv p δ) candidates hne (fun G h => (hG G h).1) _ true false ns hns _ rs training testG testI hsplit
    (scoreCtor_ok hsize) (fun d h => nearFit_good _ _ d h)
    (fun d h n A I m s hm => by
      obtain ⟨-, -, m', rfl, -⟩ := nearFit_ok (n := n) hm
      rfl) insArgsort_spec ?_ (fun hc => by simp at hc)
  intro n _ G hGm k H I hH hs
  obtain ⟨m, s, hm⟩ : ∃ m s, nearFit δ (SetIter.incr p) (foldData npCov training 1) n k H I = .ok (m, s) := by
    unfold nearFit
    rw [dif_pos ⟨⟨hH, subgraph_acyclic hs (hG G hGm).2⟩, (hgood training (by simp)).posDef, hδ⟩]
    exact ⟨_, _, rfl⟩
  have hx : Proper (idealEnv p δ).it m.2 := by
    obtain ⟨h1, h2, m', rfl, h3, -⟩ := nearFit_ok hm
    exact h3
  have hc : m.copy (idealEnv p δ).it = .ok m := by
    unfold AnyModel.copy
    rw [show m.2.copy (idealEnv p δ).it = .ok m.2 from proper_copy hx]
  refine ⟨m, s, m, hm, hc, fun t ht => ?_⟩
  have : ∃ r, m.scoreOn t = .ok r := by
    have hg : GoodData t := by
      simp only [List.mem_cons, List.not_mem_nil, or_false] at ht
      rcases ht with rfl | rfl
      · exact hgood testG (by simp)
      · exact hgood testI (by simp)
    obtain ⟨x, hx, -⟩ := proper_score hx t.nObs hg.pos hg.some t.covs hg.posDef
    exact ⟨_, hx⟩
  exact ⟨this, this⟩

/-- Three variables that are all negatively correlated. -/
noncomputable def negC : Matrix (Fin 3) (Fin 3) ℝ := !![1, -1 / 4, -1 / 4; -1 / 4, 1, -1 / 4; -1 / 4, -1 / 4, 1]

/-- One latent cannot explain three negative correlations. -/
theorem negC_one_latent (l : Nat) (hl : l ≤ 1) (I : Finset (Fin 3)) : ¬ Approximates l I (0 : Adj 3) fun _ : Fin 1 => negC := by
  intro h
  obtain ⟨D, ⟨-, B, gamma, w, psis, h1, -, h3, -, h5⟩, hw⟩ := h (1 / 8) (by norm_num)
  have hB : B = 0 := by
    ext i j
    exact h1 i j rfl
  have hD : ∀ i j, i ≠ j → D 0 i j = ∑ k, gamma k i * psis 0 k * gamma k j := by
    intro i j hij
    have := h5 0
    rw [hB] at this
    unfold Entails at this
    have h6 := congrFun (congrFun this i) j
    simpa [noiseCov, hij] using h6
  have h01 := hw 0 0 1
  have h02 := hw 0 0 2
  have h12 := hw 0 1 2
  rw [hD 0 1 (by decide)] at h01
  rw [hD 0 2 (by decide)] at h02
  rw [hD 1 2 (by decide)] at h12
  simp only [negC] at h01 h02 h12
  simp at h01 h02 h12
  rw [abs_lt] at h01 h02 h12
  interval_cases l
  · simp at h01
    norm_num at h01
  · simp only [Fin.sum_univ_one] at h01 h02 h12
    have hp := h3 0 0
    obtain ⟨x, hx⟩ : ∃ x, x = gamma 0 0 := ⟨_, rfl⟩
    obtain ⟨y, hy⟩ : ∃ y, y = gamma 0 1 := ⟨_, rfl⟩
    obtain ⟨z, hz⟩ : ∃ z, z = gamma 0 2 := ⟨_, rfl⟩
    obtain ⟨t, ht⟩ : ∃ t, t = psis 0 0 := ⟨_, rfl⟩
    rw [← hx, ← hy, ← ht] at h01
    rw [← hx, ← hz, ← ht] at h02
    rw [← hy, ← hz, ← ht] at h12
    rw [← ht] at hp
    have a1 : x * t * y < 0 := by linarith [h01.2]
    have a2 : x * t * z < 0 := by linarith [h02.2]
    have a3 : y * t * z < 0 := by linarith [h12.2]
    have a4 : 0 < (x * t * y) * (x * t * z) := mul_pos_of_neg_of_neg a1 a2
    have a5 : (x * t * y) * (x * t * z) * (y * t * z) < 0 := mul_neg_of_pos_of_neg a4 a3
    have a6 : (x * t * y) * (x * t * z) * (y * t * z) = t ^ 3 * (x * y * z) ^ 2 := by ring
    rw [a6] at a5
    exact absurd a5 (not_lt.2 (by positivity))

theorem negC_posDef : negC.PosDef := by
  have hH : negC.IsHermitian := by
    ext i j
    fin_cases i <;> fin_cases j <;> simp [negC]
  rw [Matrix.posDef_iff_dotProduct_mulVec]
  refine ⟨hH, fun x hx => ?_⟩
  have hq : star x ⬝ᵥ negC *ᵥ x = 1 / 2 * (x 0 ^ 2 + x 1 ^ 2 + x 2 ^ 2) + 1 / 4 * ((x 0 - x 1) ^ 2 + (x 0 - x 2) ^ 2 + (x 1 - x 2) ^ 2) := by
    simp [negC, Matrix.mulVec, dotProduct, Fin.sum_univ_three]
    ring
  rw [hq]
  have hs : 0 < x 0 ^ 2 + x 1 ^ 2 + x 2 ^ 2 := by
    by_contra hc
    apply hx
    have h0 := sq_nonneg (x 0)
    have h1 := sq_nonneg (x 1)
    have h2 := sq_nonneg (x 2)
    ext i
    fin_cases i
    · exact pow_eq_zero_iff (two_ne_zero) |>.1 (by linarith : x 0 ^ 2 = 0)
    · exact pow_eq_zero_iff (two_ne_zero) |>.1 (by linarith : x 1 ^ 2 = 0)
    · exact pow_eq_zero_iff (two_ne_zero) |>.1 (by linarith : x 2 ^ 2 = 0)
  positivity

/-- The graph with all edges `i → j` for `i < j`. -/
def fullThree : Adj 3 := ![![0, 1, 1], ![0, 0, 1], ![0, 0, 0]]

theorem fullThree_dag : Nonneg fullThree ∧ Acyclic fullThree := by
  have h : Nonneg fullThree := by unfold Nonneg fullThree; decide
  exact ⟨h, (isDag_iff (SetIter.incr 3) h).1 (by decide)⟩

theorem negC_full : EntailedWith 0 Finset.univ fullThree fun _ : Fin 1 => negC := by
  refine entailedWith_zero.2 ⟨fullThree_dag.2, !![0, -1 / 4, -1 / 3; 0, 0, -1 / 3; 0, 0, 0], fun _ => ![1, 15 / 16, 5 / 6], ?_, ?_, ?_, ?_⟩
  · intro i j
    fin_cases i <;> fin_cases j <;> simp [fullThree]
  · intro k i
    fin_cases i <;> simp
  · intro _ _ i hi
    exact absurd (Finset.mem_univ i) hi
  · intro k
    unfold Entails
    ext i j
    fin_cases i <;> fin_cases j <;> simp [negC, Matrix.mul_apply, Fin.sum_univ_three] <;> norm_num

/-- Concrete case for `C123_consistent`: three negatively correlated variables, the candidates are the empty graph and a full one, and models without
latents and with one are tried.  The probability that the run does not return, or returns the empty graph, tends to zero. -/
theorem C123_case (rs : Int) : ∃ δ > 0, ∀ {Ω : Type} [MeasurableSpace Ω] (μ : Measure Ω) [IsProbabilityMeasure μ] (X : ℕ → Ω → Fin 3 → ℝ), Iid μ X negC →
    Tendsto (fun n => μ {ω | ¬ ∃ P I m, equivalenceClass (idealEnv 3 δ) [0, fullThree] (fun _ => rowsOf X (List.range n) ω) true false (some [0, 1])
      [1 / 2, 1 / 4, 1 / 4] rs = .ok (P, I, m) ∧ m.A ≠ 0}) atTop (𝓝 0) := by
  have hz : Nonneg (0 : Adj 3) ∧ Acyclic (0 : Adj 3) := ⟨fun _ _ => le_rfl, acyclic_of_rank (fun _ => 0) (by simp [Edge])⟩
  have hG : ∀ G ∈ [(0 : Adj 3), fullThree], Nonneg G ∧ Acyclic G := by
    simp only [List.mem_cons, List.not_mem_nil, or_false, forall_eq_or_imp, forall_eq]
    exact ⟨hz, fullThree_dag⟩
  obtain ⟨δ, hδ, h⟩ := C123_consistent [0, fullThree] (fun G h => (hG G h).1) [0, 1] negC negC_posDef fullThree (by simp) 0 (by simp) negC_full.approximates
  refine ⟨δ, hδ, fun {Ω} _ μ _ X hX => ?_⟩
  have hlat : ∀ d h n A I m s, (idealEnv 3 δ).fit d h n A I = .ok (m, s) → m.1 = h := by
    intro d h n A I m s hm
    obtain ⟨-, -, m', rfl, -⟩ := nearFit_ok (n := n) hm
    rfl
  have hblind : ∀ k, Blind ((idealEnv 3 δ).rng 42 k) := fun k => by
    intro α β f l
    rfl
  have h1 := h (idealEnv 3 δ) true false (a := 1 / 2) (b := 1 / 4) (c := 1 / 4) rs μ X rfl (fun d h => nearFit_good _ _ d h) hlat insArgsort_spec hblind
    (fun d h _ => nearFit_almostOptimal _ _ _ _) (by norm_num) (by norm_num) (by norm_num) (by norm_num) hX
  have h2 := runs_close (μ := μ) (X := fun _ : Fin 1 => X) (C := fun _ => negC) (fun _ => hX) (fun _ => negC_posDef) (rng := (idealEnv 3 δ).rng 42) hblind
    (a := 1 / 2) (b := 1 / 4) (c := 1 / 4) (by norm_num) (by norm_num) (by norm_num) (by norm_num) (ρ := 1) one_pos
    (k0 := 0) (N := fun n _ => n) ⟨fun _ => tendsto_id, fun n => by simp⟩ hδ
    (Q := fun n ω => ∃ r, equivalenceClass (idealEnv 3 δ) [0, fullThree] (fun _ => rowsOf X (List.range n) ω) true false (some [0, 1])
      [1 / 2, 1 / 4, 1 / 4] rs = .ok r)
    (fun n ω training testG testI hsplit hsize hpos _ _ _ hcl => idealEnv_returns hδ _ (by simp) hG _ _ (by simp) _ rs training testG testI hsplit hsize
      fun f hf => ⟨(hcl f hf).1, hpos f hf, one_pos⟩)
  have h3 := h1.add h2
  rw [add_zero] at h3
  refine tendsto_of_tendsto_of_tendsto_of_le_of_le tendsto_const_nhds h3 (fun _ => zero_le) fun n => ?_
  refine le_trans (measure_mono fun ω hω => ?_) (measure_union_le _ _)
  by_contra hcon
  simp only [Set.mem_union, Set.mem_ofPred_eq, not_or, not_not] at hcon hω
  obtain ⟨hno, ⟨P, I, m⟩, hr⟩ := hcon
  refine hω ⟨P, I, m, hr, fun h0 => hno ⟨P, I, m, hr, ?_⟩⟩
  obtain ⟨s, hmain⟩ : ∃ s, fitMain (idealEnv 3 δ) (fun _ => rowsOf X (List.range n) ω) true (some [0, 1]) false [1 / 2, 1 / 4, 1 / 4] none none
      (some [0, fullThree]) 42 = .ok (m, I, s) := by
    unfold equivalenceClass withIcpdag at hr
    split at hr
    · simp at hr
    · rename_i m' I' s' hm'
      split at hr
      · simp at hr
      · cases hr
        exact ⟨_, hm'⟩
  obtain ⟨_, _, _, graphs, ns', z1, z2, z3, z4⟩ := fitMain_spec (fun d h => nearFit_good _ _ d h) hlat insArgsort_spec hmain
  cases z2
  cases z3
  obtain ⟨q1, -⟩ := z4 (fun G h => (hG G h).1)
  rw [h0]
  refine negC_one_latent _ ?_ I
  simp only [List.mem_cons, List.not_mem_nil, or_false] at q1
  omega

end Verif
