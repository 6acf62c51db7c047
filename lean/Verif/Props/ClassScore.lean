import Verif.Proof.Covered
import Verif.Props.MainTotal

/-!
# C85: the members of an interventional equivalence class entail the same covariances and reach the same scores
-/

namespace Verif

open Spec Matrix

variable {p l e : Nat}

/-- C85: let `G` and `H` be DAGs that are Markov equivalent and agree at the parents of the variables in `I`.  For every model over
`G` whose noise variances are positive and, outside `I`, the same in all environments, there is such a model over `H` with the same
latent variances and the same noise variances of the variables in `I` that entails the same covariance in every environment. -/
theorem C85_same_covariances (it : SetIter p) (G H : Adj p) (hG : Nonneg G) (hH : Nonneg H) (hacH : Acyclic H)
    (I : Finset (Fin p)) (hE : IEquiv I G H) (B : Matrix (Fin p) (Fin p) ℝ) (gamma : Matrix (Fin l) (Fin p) ℝ)
    (omegas : Matrix (Fin e) (Fin p) ℝ) (psis : Matrix (Fin e) (Fin l) ℝ) (hpos : ∀ k i, 0 < omegas k i)
    (hconst : ∀ k k' i, i ∉ I → omegas k i = omegas k' i) (m : LModel p l e) (hm : mkModel it G B gamma omegas psis = .ok m) :
    ∃ (B' : Matrix (Fin p) (Fin p) ℝ) (gamma' : Matrix (Fin l) (Fin p) ℝ) (omegas' : Matrix (Fin e) (Fin p) ℝ) (m' : LModel p l e),
      mkModel it H B' gamma' omegas' psis = .ok m' ∧ (∀ k i, 0 < omegas' k i) ∧ (∀ k k' i, i ∉ I → omegas' k i = omegas' k' i) ∧
      (∀ k i, i ∈ I → omegas' k i = omegas k i) ∧ ∃ C, m.covariances = .ok C ∧ m'.covariances = .ok C := by
  obtain ⟨hac, hB, -⟩ := mkModel_ok hG hm
  obtain ⟨B', gamma', omegas', h1, h2, h3, h4, h5⟩ := iequiv_params I hacH _ hac hE rfl hB gamma omegas hpos hconst
  refine ⟨B', gamma', omegas', _, mkModel_eq_ok hH gamma' omegas' psis hacH h1, h2, h3, h4, ?_⟩
  obtain ⟨-, C, hC, hent⟩ := C35_covariances it G hG B gamma omegas psis m hm
  obtain ⟨-, C', hC', hent'⟩ := C35_covariances it H hH B' gamma' omegas' psis _ (mkModel_eq_ok (it := it) hH gamma' omegas' psis hacH h1)
  refine ⟨C, hC, ?_⟩
  rw [hC']
  congr 1
  funext k
  exact ((hent' k).2 _ (h5 k _ _ (hent k).1)).symm

/-- The models the fitting procedure can return for a graph and targets: positive noise variances that are the same in all
environments outside the targets. -/
def Spec.Admissible (it : SetIter p) (I : Finset (Fin p)) (A : Adj p) (psis : Matrix (Fin e) (Fin l) ℝ) (m : LModel p l e) : Prop :=
  ∃ (B : Matrix (Fin p) (Fin p) ℝ) (gamma : Matrix (Fin l) (Fin p) ℝ) (omegas : Matrix (Fin e) (Fin p) ℝ),
    mkModel it A B gamma omegas psis = .ok m ∧ (∀ k i, 0 < omegas k i) ∧ ∀ k k' i, i ∉ I → omegas k i = omegas k' i

theorem iequiv_symm {I : Finset (Fin p)} {G H : Adj p} (h : IEquiv I G H) : IEquiv I H G :=
  ⟨markov_symm h.1, fun i hi k => (h.2 i hi k).symm⟩

/-- One direction of `C85_same_scores`. -/
theorem score_transfer (it : SetIter p) (G H : Adj p) (hG : Nonneg G) (hH : Nonneg H) (hacH : Acyclic H)
    (I : Finset (Fin p)) (hE : IEquiv I G H) (psis : Matrix (Fin e) (Fin l) ℝ) (hp : ∀ k i, 0 ≤ psis k i)
    (n : Fin e → Nat) (hn : ∑ k, n k ≠ 0) (S : Fin e → Matrix (Fin p) (Fin p) ℝ) (r : Except Err Flt)
    (h : ∃ m, Admissible it I G psis m ∧ m.score (List.ofFn S) (List.ofFn n) = r) :
    ∃ m, Admissible it I H psis m ∧ m.score (List.ofFn S) (List.ofFn n) = r := by
  obtain ⟨m, ⟨B, gamma, omegas, h1, h2, h3⟩, hs⟩ := h
  obtain ⟨B', gamma', omegas', m', k1, k2, k3, -, C, k4, k5⟩ :=
    C85_same_covariances it G H hG hH hacH I hE B gamma omegas psis h2 h3 m h1
  refine ⟨m', ⟨B', gamma', omegas', k1, k2, k3⟩, ?_⟩
  rw [C37_actual_score it H hH B' gamma' omegas' psis m' k1 k2 hp n hn S C k5, ← hs,
    C37_actual_score it G hG B gamma omegas psis m h1 h2 hp n hn S C k4]

/-- C85: hence on any data the models over two graphs of the same class reach exactly the same scores (with any given latent
variances), in particular the same minimum: the score cannot tell them apart. -/
theorem C85_same_scores (it : SetIter p) (G H : Adj p) (hG : Nonneg G) (hH : Nonneg H) (hacG : Acyclic G) (hacH : Acyclic H)
    (I : Finset (Fin p)) (hE : IEquiv I G H) (psis : Matrix (Fin e) (Fin l) ℝ) (hp : ∀ k i, 0 ≤ psis k i)
    (n : Fin e → Nat) (hn : ∑ k, n k ≠ 0) (S : Fin e → Matrix (Fin p) (Fin p) ℝ) (r : Except Err Flt) :
    (∃ m, Admissible it I G psis m ∧ m.score (List.ofFn S) (List.ofFn n) = r) ↔
      ∃ m, Admissible it I H psis m ∧ m.score (List.ofFn S) (List.ofFn n) = r :=
  ⟨score_transfer it G H hG hH hacH I hE psis hp n hn S r,
    score_transfer it H G hH hG hacG I (iequiv_symm hE) psis hp n hn S r⟩

/-- C85, end to end: let `(P, I, m)` be returned by `equivalence_class` with the fitting procedure of the code.  Every DAG `H` of the
class described by `P` admits a model with the latent variances of `m`, the variances of `m` at the returned targets `I` and variances
that do not change between environments elsewhere, which entails the same covariances as `m`. -/
theorem C85_returned_class (E : FitEnv p e) (svd : Matrix (Fin p) (Fin p) ℝ → Matrix (Fin p) (Fin p) ℝ × (Fin p → ℝ)) (num : NumLib p e)
    (cfg : ScoreCfg) (u v : Nat → Nat → Nat → Fin (p * p) → ℝ) (hE : E.fit = codeFit E.it svd num cfg u v)
    (hu : cfg.solver = .grad → ∀ h n, GoodDraws p (u h n)) (harg : ∀ f, IsArgsort f (E.argsort f))
    (candidates : List (Adj p)) (hG : ∀ G ∈ candidates, Nonneg G) (data : Fin e → Sample p) (solverKnown pruneEdges : Bool)
    (ns : List Nat) (folds : List Rat) (rs : Int) (P : Adj p) (I : Finset (Fin p)) (m : AnyModel p e)
    (h : equivalenceClass E candidates data solverKnown pruneEdges (some ns) folds rs = .ok (P, I, m))
    (H : Adj p) (hH : Nonneg H) (hext : IsExtension H P) :
    ∃ (B' : Matrix (Fin p) (Fin p) ℝ) (gamma' : Matrix (Fin m.1) (Fin p) ℝ) (omegas' : Matrix (Fin e) (Fin p) ℝ) (m' : LModel p m.1 e),
      mkModel E.it H B' gamma' omegas' m.2.psis = .ok m' ∧ (∀ k i, 0 < omegas' k i) ∧
      (∀ k k' i, i ∉ I → omegas' k i = omegas' k' i) ∧ (∀ k i, i ∈ I → omegas' k i = m.omegas k i) ∧
      ∃ C, m.2.covariances = .ok C ∧ m'.covariances = .ok C := by
  have hfit : ∀ d h, GoodFit (E.fit d h) := by
    intro d h
    rw [hE]
    exact codeFit_good _ _ _ _ _ _ _ _ (fun hc => hu hc h)
  have hlat : ∀ d h n A I m s, E.fit d h n A I = .ok (m, s) → m.1 = h := by
    intro d h n A I m s hm
    rw [hE] at hm
    exact codeFit_latents hm
  obtain ⟨⟨G, hGm, hsub, -⟩, hac, hB, -, -, hcls, -⟩ :=
    C59_coherent E hfit hlat harg candidates hG data solverKnown pruneEdges ns folds rs P I m h
  have hnn : Nonneg m.A := by
    intro a b
    rcases hsub a b with hc | hc
    · rw [hc]; exact hG G hGm a b
    · rw [hc]
  obtain ⟨hacH, hEq⟩ := (hcls H).1 hext
  have hw : (∀ k i, 0 < m.omegas k i) ∧ ∀ k k' i, i ∉ I → m.omegas k i = m.omegas k' i := by
    unfold equivalenceClass withIcpdag at h
    split at h
    · simp at h
    · rename_i m' I' s hm
      split at h
      · simp at h
      · cases h
        obtain ⟨training, testG, testI, graphs', ns', h1, h2, h3, h4⟩ := fitMain_spec hfit hlat harg hm
        cases h2
        cases h3
        obtain ⟨-, -, -, -, -, m0, s0, order, -, -, -, -, ⟨sf, k7⟩, -⟩ := h4 hG
        obtain ⟨n, m1, f1, -, -, -, f2⟩ := k7.fields
        rw [hE] at f1
        unfold codeFit at f1
        split at f1
        · simp at f1
        · rename_i m2 s2 hm2
          cases f1
          rw [f2]
          exact ⟨(C47_within_bounds none _ _ hm2).1, fun k k' i hi => C46_non_targets_constant _ _ hm2 i hi k k'⟩
  obtain ⟨B', gamma', omegas', m', k1, k2, k3, k4, C, k5, k6⟩ :=
    C85_same_covariances E.it m.A H hnn hH hacH I hEq m.B m.2.gamma m.omegas m.2.psis hw.1 hw.2 _
      (mkModel_eq_ok hnn m.2.gamma m.omegas m.2.psis hac hB)
  exact ⟨B', gamma', omegas', m', k1, k2, k3, k4, C, k5, k6⟩

/-- C85, boundary: agreement at the parents of the targets is needed.  `0 → 1` and `1 → 0` are Markov equivalent, but with the target
`0` there is a model over the first that entails covariances no model over the second without latents entails. -/
theorem C85_targets_needed (it : SetIter 2) : ∃ (m : LModel 2 0 2) (C : Fin 2 → Matrix (Fin 2) (Fin 2) ℝ),
    MarkovEquiv (![![0, 1], ![0, 0]] : Adj 2) ![![0, 0], ![1, 0]] ∧ Admissible it {0} ![![0, 1], ![0, 0]] 0 m ∧ m.covariances = .ok C ∧
    ∀ m' : LModel 2 0 2, Admissible it {0} ![![0, 0], ![1, 0]] 0 m' → m'.covariances ≠ .ok C := by
  have hG : Nonneg (![![0, 1], ![0, 0]] : Adj 2) := by unfold Nonneg; decide
  have hH : Nonneg (![![0, 0], ![1, 0]] : Adj 2) := by unfold Nonneg; decide
  have hacG : Acyclic (![![0, 1], ![0, 0]] : Adj 2) := (isDag_iff it hG).1 (by rw [isDag_iff it hG]; exact (isDag_iff (SetIter.incr 2) hG).1 (by decide))
  have hB : Respects (![![0, 1], ![0, 0]] : Adj 2) (!![0, 1; 0, 0] : Matrix (Fin 2) (Fin 2) ℝ) := by
    intro i j h
    fin_cases i <;> fin_cases j <;> simp at h ⊢
  have hmk := mkModel_eq_ok (it := it) (e := 2) (l := 0) hG 0 (!![1, 1; 2, 1] : Matrix (Fin 2) (Fin 2) ℝ) 0 hacG hB
  obtain ⟨-, C, hC, hent⟩ := C35_covariances it _ hG _ _ _ _ _ hmk
  refine ⟨_, C, ?_, ⟨_, _, _, hmk, ?_, ?_⟩, hC, ?_⟩
  · refine ⟨fun i j => ?_, fun i c j => ?_⟩
    · unfold Adjacent
      fin_cases i <;> fin_cases j <;> simp
    · unfold VStructure DirEdge Adjacent
      fin_cases i <;> fin_cases c <;> fin_cases j <;> simp
  · intro k i
    fin_cases k <;> fin_cases i <;> norm_num
  · intro k k' i hi
    fin_cases k <;> fin_cases k' <;> fin_cases i <;> simp at hi ⊢
  · rintro m' ⟨B', gamma', omegas', h1, h2, h3⟩ hC'
    obtain ⟨-, hB', -⟩ := mkModel_ok hH h1
    obtain ⟨-, C', hC'', hent'⟩ := C35_covariances it _ hH _ _ _ _ _ h1
    rw [hC'] at hC''
    cases hC''
    have hvar : ∀ k, C k 1 1 = omegas' k 1 := by
      intro k
      have := congrFun (congrFun (hent' k).1 1) 1
      have b1 : B' 0 1 = 0 := hB' _ _ rfl
      have b2 : B' 1 1 = 0 := hB' _ _ rfl
      simpa [noiseCov, Matrix.mul_apply, Fin.sum_univ_two, b1, b2] using this
    have hC0 : ∀ k, C k 1 1 = (!![1, 1; 2, 1] : Matrix (Fin 2) (Fin 2) ℝ) k 0 + 1 := by
      intro k
      have := (hent k).2 !![(!![1, 1; 2, 1] : Matrix (Fin 2) (Fin 2) ℝ) k 0, (!![1, 1; 2, 1] : Matrix (Fin 2) (Fin 2) ℝ) k 0;
        (!![1, 1; 2, 1] : Matrix (Fin 2) (Fin 2) ℝ) k 0, (!![1, 1; 2, 1] : Matrix (Fin 2) (Fin 2) ℝ) k 0 + 1] (by
          unfold Entails
          ext i j
          fin_cases k <;> fin_cases i <;> fin_cases j <;>
            norm_num [noiseCov, Matrix.mul_apply, Fin.sum_univ_two, Matrix.one_apply])
      rw [← this]
      simp
    have := h3 0 1 1 (by simp)
    rw [← hvar, ← hvar, hC0, hC0] at this
    norm_num at this

/-- An example for C85: `0 → 1` and `1 → 0`, one latent, two environments, no targets. -/
example (it : SetIter 2) : ∃ (m : LModel 2 1 2) (B' : Matrix (Fin 2) (Fin 2) ℝ) (gamma' : Matrix (Fin 1) (Fin 2) ℝ) (omegas' : Matrix (Fin 2) (Fin 2) ℝ)
    (m' : LModel 2 1 2) (C : Fin 2 → Matrix (Fin 2) (Fin 2) ℝ), m.A = ![![0, 1], ![0, 0]] ∧ m.B 0 1 = 2 ∧
    mkModel it ![![0, 0], ![1, 0]] B' gamma' omegas' !![1; 3] = .ok m' ∧ m.covariances = .ok C ∧ m'.covariances = .ok C := by
  have hG : Nonneg (![![0, 1], ![0, 0]] : Adj 2) := by unfold Nonneg; decide
  have hH : Nonneg (![![0, 0], ![1, 0]] : Adj 2) := by unfold Nonneg; decide
  have hacG : Acyclic (![![0, 1], ![0, 0]] : Adj 2) := (isDag_iff (SetIter.incr 2) hG).1 (by decide)
  have hacH : Acyclic (![![0, 0], ![1, 0]] : Adj 2) := (isDag_iff (SetIter.incr 2) hH).1 (by decide)
  have hB : Respects (![![0, 1], ![0, 0]] : Adj 2) (!![0, 2; 0, 0] : Matrix (Fin 2) (Fin 2) ℝ) := by
    intro i j h
    fin_cases i <;> fin_cases j <;> simp at h ⊢
  have hE : IEquiv ∅ (![![0, 1], ![0, 0]] : Adj 2) ![![0, 0], ![1, 0]] := by
    refine ⟨⟨fun i j => ?_, fun i c j => ?_⟩, by simp [SameParentsAt]⟩
    · unfold Adjacent
      fin_cases i <;> fin_cases j <;> simp
    · unfold VStructure DirEdge Adjacent
      fin_cases i <;> fin_cases c <;> fin_cases j <;> simp
  have hmk := mkModel_eq_ok (it := it) hG (!![1, -1] : Matrix (Fin 1) (Fin 2) ℝ) (!![1, 2; 1, 2] : Matrix (Fin 2) (Fin 2) ℝ) !![1; 3] hacG hB
  obtain ⟨B', gamma', omegas', m', h1, -, -, -, C, h2, h3⟩ := C85_same_covariances it _ _ hG hH hacH ∅ hE _ _ _ _
    (by intro k i; fin_cases k <;> fin_cases i <;> norm_num) (by intro k k' i _; fin_cases k <;> fin_cases k' <;> fin_cases i <;> norm_num) _ hmk
  exact ⟨_, B', gamma', omegas', m', C, rfl, by simp, h1, h2, h3⟩

end Verif
