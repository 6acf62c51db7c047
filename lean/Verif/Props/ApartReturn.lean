import Verif.Props.Apart
import Verif.Props.PopulationCode
import Verif.Props.ManyLatents

/-!
# C112: what this means for the score and for `equivalence_class`
-/

namespace Verif

open Spec Matrix

variable {p l l' e : Nat}

/-- The variances of the latents do not change between environments, as with `psi_fixed`. -/
def Spec.FixedPsis (l : Nat) (psis : Matrix (Fin e) (Fin l) ℝ) : Prop := ∀ k k', psis k = psis k'

/-- C112: on the covariances of a model in which the noise variances of all variables change, no two of them proportionally, and those of the
latents do not, a valid model with any graph, any number of latents and fixed latent variances has the same score as the truth only if it has
the same weights, so that its graph contains every edge with a weight other than zero. -/
theorem C112_score (it : SetIter p) (m₀ : LModel p l e) (h₀ : Proper it m₀) (hpsi : FixedPsis l m₀.psis) (hap : ChangeApart m₀.omegas)
    (hall : ∀ i, Varies m₀.omegas i) (C : Fin e → Matrix (Fin p) (Fin p) ℝ) (hC : m₀.covariances = .ok C) (m : LModel p l' e) (h : Proper it m)
    (hpsi' : FixedPsis l' m.psis) (n : Fin e → Nat) (hn : ∀ k, 0 < n k) (he : 0 < e) :
    ∃ s₀ s, m₀.score (List.ofFn C) (List.ofFn n) = .ok (some s₀) ∧ m.score (List.ofFn C) (List.ofFn n) = .ok (some s) ∧
      s₀ ≤ s ∧ (s = s₀ → m.B = m₀.B ∧ ∀ i j, m₀.B i j ≠ 0 → Edge m.A i j) := by
  obtain ⟨s₀, s, h1, h2, h3, h4⟩ := C88_truth_minimises it m₀ h₀ m h n hn he C hC
  refine ⟨s₀, s, h1, h2, h3, fun hs => ?_⟩
  have hC' := h4.1 hs
  obtain ⟨A, B, gamma, omegas, psis, hA, k1, -, -⟩ := h₀
  obtain ⟨-, -, rfl⟩ := mkModel_ok hA k1
  obtain ⟨A', B', gamma', omegas', psis', hA', k1', -, -⟩ := h
  obtain ⟨-, hB', rfl⟩ := mkModel_ok hA' k1'
  obtain ⟨hBB, -⟩ := C112_all_targets it A A' hA hA' B B' gamma gamma' omegas omegas' psis psis' _ _ k1 k1' C hC hC' hpsi hpsi' hap hall
  refine ⟨hBB, fun i j hij hz => hij ?_⟩
  show B i j = 0
  rw [← hBB]
  exact hB' i j hz

/-- A graph that contains the edges of a model can take its place. -/
theorem fixed_supergraph (it : SetIter p) {A H : Adj p} (hA : Nonneg A) (hH : Nonneg H) (hac : Acyclic H) {B : Matrix (Fin p) (Fin p) ℝ}
    {gamma : Matrix (Fin l) (Fin p) ℝ} {omegas : Matrix (Fin e) (Fin p) ℝ} {psis : Matrix (Fin e) (Fin l) ℝ} {m : LModel p l e}
    (h : mkModel it A B gamma omegas psis = .ok m) (ho : ∀ k i, 0 < omegas k i) (hp : ∀ k i, 0 ≤ psis k i) (hpsi : FixedPsis l psis)
    {C : Fin e → Matrix (Fin p) (Fin p) ℝ} (hC : m.covariances = .ok C) (hsub : ∀ i j, B i j ≠ 0 → Edge H i j) :
    CanEntailIn FixedPsis it l Finset.univ H C := by
  obtain ⟨-, -, rfl⟩ := mkModel_ok hA h
  have hB : Respects H B := fun i j hz => by
    by_contra hc
    exact hsub i j hc hz
  exact ⟨psis, _, hp, hpsi, ⟨B, gamma, omegas, mkModel_eq_ok hH gamma omegas psis hac hB, ho, fun _ _ i hi => absurd (Finset.mem_univ i) hi⟩, hC⟩

/-- C112: a graph can entail such covariances with fixed latent variances only if it contains all the edges of the truth. -/
theorem C112_contains (it : SetIter p) (A H : Adj p) (hA : Nonneg A) (hH : Nonneg H) (B : Matrix (Fin p) (Fin p) ℝ)
    (gamma : Matrix (Fin l) (Fin p) ℝ) (omegas : Matrix (Fin e) (Fin p) ℝ) (psis : Matrix (Fin e) (Fin l) ℝ) (m : LModel p l e)
    (h : mkModel it A B gamma omegas psis = .ok m) (hpsi : FixedPsis l psis) (hap : ChangeApart omegas) (hall : ∀ i, Varies omegas i)
    (C : Fin e → Matrix (Fin p) (Fin p) ℝ) (hC : m.covariances = .ok C) (I : Finset (Fin p)) (hent : CanEntailIn FixedPsis it l' I H C)
    (i j : Fin p) (hij : B i j ≠ 0) : Edge H i j := by
  obtain ⟨psis', m', -, h2, ⟨B', gamma', omegas', h3, -⟩, h4⟩ := hent
  obtain ⟨hBB, -⟩ := C112_all_targets it A H hA hH B B' gamma gamma' omegas omegas' psis psis' m m' h h3 C hC h4 hpsi h2 hap hall
  obtain ⟨-, hB', -⟩ := mkModel_ok hH h3
  intro hz
  exact hij (by rw [← hBB]; exact hB' i j hz)

/-- C112, end to end: with `psi_fixed`, if the model returned by `equivalence_class` entails the covariances of a model in which the noise
variances of all variables change, no two of them proportionally, and those of its latents do not, then it has the weights of the truth, all
variables are returned as targets, and the class is a single graph, that of the returned model, which contains all edges of the truth. -/
theorem C112_returned (E : FitEnv p e) (svd : Matrix (Fin p) (Fin p) ℝ → Matrix (Fin p) (Fin p) ℝ × (Fin p → ℝ)) (num : NumLib p e)
    (cfg : ScoreCfg) (u v : Nat → Nat → Nat → Fin (p * p) → ℝ) (hE : E.fit = codeFit E.it svd num cfg u v)
    (hu : cfg.solver = .grad → ∀ h n, GoodDraws p (u h n)) (harg : ∀ f, IsArgsort f (E.argsort f)) (hfix : cfg.psiFixed = true)
    (candidates : List (Adj p)) (hG : ∀ G ∈ candidates, Nonneg G) (data : Fin e → Sample p) (solverKnown pruneEdges : Bool)
    (ns : List Nat) (folds : List Rat) (rs : Int) (P : Adj p) (I : Finset (Fin p)) (m : AnyModel p e)
    (h : equivalenceClass E candidates data solverKnown pruneEdges (some ns) folds rs = .ok (P, I, m))
    (A : Adj p) (hA : Nonneg A) (B : Matrix (Fin p) (Fin p) ℝ) (gamma : Matrix (Fin l) (Fin p) ℝ) (omegas : Matrix (Fin e) (Fin p) ℝ)
    (psis : Matrix (Fin e) (Fin l) ℝ) (m₀ : LModel p l e) (h₀ : mkModel E.it A B gamma omegas psis = .ok m₀) (hpsi : FixedPsis l psis)
    (hap : ChangeApart omegas) (hall : ∀ i, Varies omegas i) (C : Fin e → Matrix (Fin p) (Fin p) ℝ) (hC₀ : m₀.covariances = .ok C)
    (hC : m.2.covariances = .ok C) :
    m.B = B ∧ I = Finset.univ ∧ (∀ i j, P i j = if m.A i j ≠ 0 then 1 else 0) ∧ ∀ i j, B i j ≠ 0 → P i j = 1 := by
  obtain ⟨hnn, hac, hB, hw, hps⟩ :=
    returned_params E svd num cfg u v hE hu harg candidates hG data solverKnown pruneEdges ns folds rs P I m h
  have hmk := mkModel_eq_ok (it := E.it) hnn m.2.gamma m.omegas m.2.psis hac hB
  obtain ⟨hBB, hv, -⟩ := C112_all_targets E.it A m.A hA hnn B m.B gamma m.2.gamma omegas m.omegas psis m.2.psis m₀ _ h₀ hmk C hC₀ hC hpsi
    (fun k k' => funext fun j => hps hfix k k' j) hap hall
  have hI : I = Finset.univ := by
    refine Finset.eq_univ_iff_forall.2 fun i => ?_
    by_contra hi
    obtain ⟨k, k', hk⟩ := hv i
    exact hk (hw k k' i hi)
  have hP : dagToIcpdag E.it m.A (E.it.toList I) = .ok P := by
    unfold equivalenceClass withIcpdag at h
    split at h
    · simp at h
    · split at h
      · simp at h
      · rename_i P' hP'
        cases h
        exact hP'
  have hPm := C22_all_targets E.it m.A P hnn hac _ (fun i => (E.it.mem I i).2 (by rw [hI]; exact Finset.mem_univ _)) hP
  refine ⟨hBB, hI, hPm, fun i j hij => ?_⟩
  rw [hPm, if_pos]
  intro hz
  exact hij (by rw [← hBB]; exact hB i j hz)

/-- C112, with C95: if the sample covariances of all folds are those of such a model, one of the candidates contains all its edges, its number of
latents is among those tried, and the fits respect `psi_fixed` and are exact up to this number, then `equivalence_class` finds the weights of the truth
and returns a single graph, which contains all its edges: without pruning the first candidate that does. -/
theorem C112_population (E : FitEnv p e) (candidates : List (Adj p)) (hG : ∀ G ∈ candidates, Nonneg G ∧ Acyclic G) (data : Fin e → Sample p)
    (solverKnown pruneEdges : Bool) (ns : List Nat) (folds : List Rat) (rs : Int) (hfit : ∀ d h, GoodFit (E.fit d h))
    (hlat : ∀ d h n A I m s, E.fit d h n A I = .ok (m, s) → m.1 = h) (harg : ∀ f, IsArgsort f (E.argsort f)) (he : 0 < e)
    (A : Adj p) (hA : Nonneg A) (B : Matrix (Fin p) (Fin p) ℝ) (gamma : Matrix (Fin l) (Fin p) ℝ) (omegas : Matrix (Fin e) (Fin p) ℝ)
    (psis : Matrix (Fin e) (Fin l) ℝ) (m₀ : LModel p l e) (h₀ : mkModel E.it A B gamma omegas psis = .ok m₀) (ho : ∀ k i, 0 < omegas k i)
    (hp : ∀ k i, 0 ≤ psis k i) (hpsi : FixedPsis l psis) (hap : ChangeApart omegas) (hall : ∀ i, Varies omegas i)
    (C : Fin e → Matrix (Fin p) (Fin p) ℝ) (hC : m₀.covariances = .ok C)
    (training testG testI : List (Sample p)) (hsplit : splitData (E.rng 42) (List.ofFn data) folds = .ok [training, testG, testI])
    (hpop : ∀ f ∈ [training, testG, testI], ∀ k : Fin e, E.cov (f.getD k []) = C k ∧ f.getD k [] ≠ [])
    (hproper : ∀ h ∈ ns, ProperFit E.it (E.fit (foldData E.cov training e) h))
    (hK : ∀ h ∈ ns, FitsIn FixedPsis (E.fit (foldData E.cov training e) h))
    (hexact : ∀ h ∈ ns, h ≤ l → ExactFitIn FixedPsis E.it h C (E.fit (foldData E.cov training e) h))
    (hl : l ∈ ns) (G : Adj p) (hGm : G ∈ candidates) (hsub : ∀ i j, B i j ≠ 0 → Edge G i j)
    (P : Adj p) (I : Finset (Fin p)) (m : AnyModel p e)
    (h : equivalenceClass E candidates data solverKnown pruneEdges (some ns) folds rs = .ok (P, I, m)) :
    m.B = B ∧ m.1 ≤ l ∧ I = Finset.univ ∧ (∀ i j, P i j = if m.A i j ≠ 0 then 1 else 0) ∧ (∀ i j, B i j ≠ 0 → P i j = 1) ∧
      (pruneEdges = false → ∃ i : Nat, candidates[i]? = some m.A ∧
        ∀ j < i, ∀ H, candidates[j]? = some H → ∃ a b, B a b ≠ 0 ∧ H a b = 0) := by
  have hCp : ∀ k, (C k).PosDef := by
    obtain ⟨-, ⟨C', hC', hpd⟩, -⟩ := C36_posDef E.it A hA B gamma omegas psis m₀ h₀ ho hp
    rw [hC] at hC'
    cases hC'
    exact fun k => (hpd k).1
  obtain ⟨k0, k1, k2, k3, k4, k5⟩ := C95_population_in FixedPsis E candidates (fun G h => (hG G h).1) data solverKnown pruneEdges ns folds rs hfit
    hlat harg C hCp he training testG testI hsplit hpop l hproper hK hexact G hGm hl
    (fixed_supergraph E.it hA (hG G hGm).1 (hG G hGm).2 h₀ ho hp hpsi hC hsub) P I m h
  have hpm : FixedPsis m.1 m.2.psis := by
    unfold equivalenceClass withIcpdag at h
    split at h
    · simp at h
    · rename_i m' I' s hm
      split at h
      · simp at h
      · cases h
        obtain ⟨t1, t2, t3, graphs', ns', h1, h2, h3, h4⟩ := fitMain_spec hfit hlat harg hm
        rw [hsplit] at h1
        cases h1
        cases h2
        cases h3
        obtain ⟨q1, -, -, -, -, m0, s0, order, -, -, -, -, ⟨sf, k7⟩, -⟩ := h4 (fun G h => (hG G h).1)
        exact fitsIn_fitted (hK m.1 q1) k7
  obtain ⟨lm, m⟩ := m
  have k0 : Proper E.it m := k0
  obtain ⟨A', B', gamma', omegas', psis', hA', q1, q2, q3⟩ := k0
  obtain ⟨-, hB', e1⟩ := mkModel_ok hA' q1
  subst e1
  obtain ⟨hBB, -⟩ := C112_all_targets E.it A A' hA hA' B B' gamma gamma' omegas omegas' psis psis' m₀ _ h₀ q1 C hC k1 hpsi hpm hap hall
  refine ⟨hBB, k4 G hGm l hl (fixed_supergraph E.it hA (hG G hGm).1 (hG G hGm).2 h₀ ho hp hpsi hC hsub), k2, k3, fun i j hij => ?_,
    fun hpr => ?_⟩
  · rw [k3, if_pos]
    intro hz
    exact hij (by rw [← hBB]; exact hB' i j hz)
  · obtain ⟨i, i1, i2⟩ := k5 hpr
    refine ⟨i, i1, fun j hj H hH => ?_⟩
    by_contra hc
    push Not at hc
    refine i2 j hj H hH (fixed_supergraph E.it hA' (hG H (List.mem_of_getElem? hH)).1 (hG H (List.mem_of_getElem? hH)).2 q1 q2 q3 hpm k1
      fun a b hab => ?_)
    rw [hBB] at hab
    exact hc a b hab

/-- C112, with C104: the same for the code's own fits, with the convex solver, when the truth has no latents and edges are not pruned; then the
call also returns. -/
theorem C112_no_latents (E : FitEnv p e) (svd : Matrix (Fin p) (Fin p) ℝ → Matrix (Fin p) (Fin p) ℝ × (Fin p → ℝ)) (num : NumLib p e)
    (hs : GoodSqrt num.sqrtm) (cfg : ScoreCfg) (u v : Nat → Nat → Nat → Fin (p * p) → ℝ) (hE : E.fit = codeFit E.it svd num cfg u v)
    (hp0 : p ≠ 0) (he : 0 < e) (hcvx : cfg.solver = .cvx) (hthr : 0 < cfg.thresholdScore) (hpsi : ∀ x, cfg.psiMax = some x → 1 < x)
    (hit : 0 < cfg.stop.maxIter) (hfl : 0 < cfg.stop.maxFluctuations) (hdist : 0 ≤ cfg.stop.thresholdDistB)
    (harg : ∀ f, IsArgsort f (E.argsort f)) (candidates : List (Adj p)) (hG : ∀ G ∈ candidates, Nonneg G ∧ Acyclic G)
    (data : Fin e → Sample p) (ns : List Nat) (h0 : 0 ∈ ns) (hnp : ∀ n ∈ ns, n ≤ p) (folds : List Rat) (rs : Int)
    (training testG testI : List (Sample p)) (hsplit : splitData (E.rng 42) (List.ofFn data) folds = .ok [training, testG, testI])
    (hsize : ∀ s ∈ training, s.length ≠ 1) (C : Fin e → Matrix (Fin p) (Fin p) ℝ)
    (hpop : ∀ f ∈ [training, testG, testI], ∀ k : Fin e, E.cov (f.getD k []) = C k ∧ f.getD k [] ≠ [])
    (hopt : ∀ A Ms, CvxOptimal num A Ms (foldData E.cov training e) 0)
    (A : Adj p) (hA : Nonneg A) (B : Matrix (Fin p) (Fin p) ℝ) (omegas : Matrix (Fin e) (Fin p) ℝ)
    (m₀ : LModel p 0 e) (h₀ : mkModel E.it A B 0 omegas 0 = .ok m₀) (ho : ∀ k i, 0 < omegas k i) (hap : ChangeApart omegas)
    (hall : ∀ i, Varies omegas i) (hC : m₀.covariances = .ok C) (G : Adj p) (hGm : G ∈ candidates) (hsub : ∀ i j, B i j ≠ 0 → Edge G i j) :
    ∃ (P : Adj p) (m : LModel p 0 e), equivalenceClass E candidates data true false (some ns) folds rs = .ok (P, Finset.univ, ⟨0, m⟩) ∧
      m.B = B ∧ (∀ i j, P i j = if m.A i j ≠ 0 then 1 else 0) ∧ (∀ i j, B i j ≠ 0 → P i j = 1) ∧
      ∃ i : Nat, candidates[i]? = some m.A ∧ ∀ j < i, ∀ H, candidates[j]? = some H → ∃ a b, B a b ≠ 0 ∧ H a b = 0 := by
  have hfixed : ∀ psis : Matrix (Fin e) (Fin 0) ℝ, FixedPsis 0 psis := fun psis k k' => funext fun j => j.elim0
  have hcan : ∀ H ∈ candidates, EntailedBy Finset.univ H C ↔ CanEntailIn FixedPsis E.it 0 Finset.univ H C := by
    intro H hH
    constructor
    · intro h
      obtain ⟨m, h1, h2⟩ := (admissible_iff E.it Finset.univ (hG H hH).1 (hG H hH).2 0 C).2 h
      exact ⟨0, m, fun _ i => i.elim0, hfixed _, h1, h2⟩
    · rintro ⟨psis, m, -, -, h1, h2⟩
      exact (admissible_iff E.it Finset.univ (hG H hH).1 (hG H hH).2 psis C).1 ⟨m, h1, h2⟩
  have hsup : ∀ H ∈ candidates, (∀ i j, B i j ≠ 0 → Edge H i j) → EntailedBy Finset.univ H C := fun H hH hs =>
    (hcan H hH).2 (fixed_supergraph E.it hA (hG H hH).1 (hG H hH).2 h₀ ho (fun _ i => i.elim0) (hfixed _) hC hs)
  obtain ⟨P, m, h1, h2, h3, i, h4, h5, h6⟩ := C104_no_latents E svd num hs cfg u v hE hp0 he hcvx hthr hpsi hit hfl hdist harg candidates hG data ns
    h0 hnp folds rs training testG testI hsplit hsize C hpop hopt G hGm (hsup G hGm hsub)
  obtain ⟨hnn, hac, hB, -, -⟩ := returned_params E svd num cfg u v hE (fun hc => by rw [hcvx] at hc; simp at hc) harg candidates
    (fun G h => (hG G h).1) data true false ns folds rs P _ _ h1
  have hmk := mkModel_eq_ok (it := E.it) hnn m.gamma m.omegas m.psis hac hB
  obtain ⟨hBB, -⟩ := C112_all_targets E.it A m.A hA hnn B m.B 0 m.gamma omegas m.omegas 0 m.psis m₀ _ h₀ hmk C hC h2 (hfixed _) (hfixed _) hap hall
  refine ⟨P, m, h1, hBB, h3, fun i j hij => ?_, i, h4, fun j hj H hH => ?_⟩
  · rw [h3, if_pos]
    intro hz
    exact hij (by rw [← hBB]; exact hB i j hz)
  · by_contra hc
    push Not at hc
    exact h6 j hj H hH (hsup H (List.mem_of_getElem? hH) fun a b hab => hc a b hab)

end Verif
