import Verif.Props.RobustClosed

/-!
# C113: small errors do not lead to a wrong graph

A run of `equivalence_class` on folds whose covariances are close to `C`, with fits that are almost optimal, returns a graph and targets that
approximate `C`.
-/

namespace Verif

open Matrix Spec

variable {p l e : Nat}

/-- A fitting procedure whose models, with the weights that enter their scores, respect the targets and are within `δ` of the best documented
score on the data `d` of all models over the graph, with the targets and `l` latents.  The models in a cache are copies. -/
def Spec.AlmostOptimal (δ : ℝ) (it : SetIter p) (l : Nat) (d : Data p e) (fit : Fitter p e) : Prop :=
  ∀ A I m s, Nonneg A → FittedTo it fit A I m s → (∀ k k' i, i ∉ I → m.2.omegas k i = m.2.omegas k' i) ∧
    ∃ B D, Proper it ({ m.2 with B := B } : LModel p m.1 e) ∧ ({ m.2 with B := B } : LModel p m.1 e).covariances = .ok D ∧
      ∀ D', EntailedWith l I A D' → weightedNLL d.nObs D d.covs ≤ weightedNLL d.nObs D' d.covs + δ

theorem proper_entailed {it : SetIter p} {m : LModel p l e} (h : Proper it m) {I : Finset (Fin p)}
    (hI : ∀ k k' i, i ∉ I → m.omegas k i = m.omegas k' i) {D : Fin e → Matrix (Fin p) (Fin p) ℝ} (hD : m.covariances = .ok D) :
    EntailedWith l I m.A D := by
  obtain ⟨A, B, gamma, omegas, psis, hA, h1, h2, h3⟩ := h
  obtain ⟨-, C, hC, hent⟩ := C35_covariances it A hA B gamma omegas psis m h1
  obtain ⟨hac, hB, rfl⟩ := mkModel_ok hA h1
  rw [hD] at hC
  cases hC
  exact ⟨hac, B, gamma, omegas, psis, hB, h2, h3, hI, fun k => (hent k).1⟩

/-! ## Weighted sums of likelihoods -/

/-- A weighted sum of the excesses of the likelihoods. -/
theorem nll_sum_lt {a : Fin e → ℝ} (ha : ∀ k, 0 < a k) {η : ℝ} (hη : 0 < η) {D D₀ S : Fin e → Matrix (Fin p) (Fin p) ℝ}
    (hD : ∀ k, (D k).PosDef) (hS : ∀ k, (S k).PosDef) {k0 : Fin e} (hk0 : Real.log (S k0).det + p + η < gaussNLL (D k0) (S k0))
    {α : ℝ} (hα : ∀ k, α ≤ a k) (h₀ : ∀ k, gaussNLL (D₀ k) (S k) < Real.log (S k).det + p + α * η / ∑ k, a k) :
    ∑ k, a k * gaussNLL (D₀ k) (S k) < ∑ k, a k * gaussNLL (D k) (S k) := by
  have hs : 0 < ∑ k, a k := Finset.sum_pos (fun k _ => ha k) ⟨k0, Finset.mem_univ _⟩
  calc ∑ k, a k * gaussNLL (D₀ k) (S k) < ∑ k, a k * (Real.log (S k).det + p + α * η / ∑ k, a k) :=
        Finset.sum_lt_sum_of_nonempty ⟨k0, Finset.mem_univ _⟩ fun k _ => mul_lt_mul_of_pos_left (h₀ k) (ha k)
    _ = ∑ k, a k * (Real.log (S k).det + p) + α * η := by
        simp only [mul_add, Finset.sum_add_distrib]
        rw [← Finset.sum_mul (s := Finset.univ) (f := a) (a := α * η / ∑ k, a k), mul_div_cancel₀ _ hs.ne']
    _ ≤ ∑ k, a k * (Real.log (S k).det + p) + a k0 * η := by
        have := mul_le_mul_of_nonneg_right (hα k0) hη.le
        linarith
    _ = ∑ k, (a k * (Real.log (S k).det + p) + if k = k0 then a k0 * η else 0) := by
        rw [Finset.sum_add_distrib]
        simp
    _ ≤ ∑ k, a k * gaussNLL (D k) (S k) := by
        refine Finset.sum_le_sum fun k _ => ?_
        split_ifs with hk
        · subst hk
          have := mul_le_mul_of_nonneg_left hk0.le (ha k).le
          linarith [mul_add (a k) (Real.log (S k).det + p) η]
        · rw [add_zero]
          exact mul_le_mul_of_nonneg_left (gaussNLL_ge (hD k) (hS k)).1 (ha k).le

/-- If the weighted excess is small, every single excess is. -/
theorem nll_excess_le {a : Fin e → ℝ} (ha : ∀ k, 0 < a k) {D S : Fin e → Matrix (Fin p) (Fin p) ℝ}
    (hD : ∀ k, (D k).PosDef) (hS : ∀ k, (S k).PosDef) {η α : ℝ} (hα0 : 0 < α) (hα : ∀ k, α ≤ a k)
    (h : ∑ k, a k * gaussNLL (D k) (S k) ≤ ∑ k, a k * (Real.log (S k).det + p) + α * η) (k : Fin e) :
    gaussNLL (D k) (S k) ≤ Real.log (S k).det + p + η := by
  by_contra hc
  push Not at hc
  have h1 : ∑ j, (a j * (Real.log (S j).det + p) + if j = k then a k * (gaussNLL (D k) (S k) - (Real.log (S k).det + p)) else 0) ≤
      ∑ j, a j * gaussNLL (D j) (S j) := by
    refine Finset.sum_le_sum fun j _ => ?_
    split_ifs with hj
    · subst hj
      have : a j * (Real.log (S j).det + p) + a j * (gaussNLL (D j) (S j) - (Real.log (S j).det + p)) = a j * gaussNLL (D j) (S j) := by ring
      rw [this]
    · rw [add_zero]
      exact mul_le_mul_of_nonneg_left (gaussNLL_ge (hD j) (hS j)).1 (ha j).le
  rw [Finset.sum_add_distrib, Finset.sum_ite_eq' Finset.univ k, if_pos (Finset.mem_univ k)] at h1
  have h2 := mul_le_mul_of_nonneg_right (hα k) (sub_nonneg.2 (gaussNLL_ge (hD k) (hS k)).1)
  have h3 : α * η < α * (gaussNLL (D k) (S k) - (Real.log (S k).det + p)) := mul_lt_mul_of_pos_left (by linarith) hα0
  linarith

theorem exists_lower (he : 0 < e) {a : Fin e → ℝ} (ha : ∀ k, 0 < a k) : ∃ α > 0, ∀ k, α ≤ a k := by
  have : Nonempty (Fin e) := ⟨⟨0, he⟩⟩
  obtain ⟨k0, hk0⟩ := Finite.exists_min a
  exact ⟨a k0, ha k0, hk0⟩

/-- One bound that holds for finitely many classes. -/
theorem exists_uniform {ι : Type} [Finite ι] {P : ι → ℝ → Prop} (hP : ∀ i, ∃ δ > 0, P i δ) (hmono : ∀ i δ δ', 0 < δ' → δ' ≤ δ → P i δ → P i δ') :
    ∃ δ > 0, ∀ i, P i δ := by
  rcases isEmpty_or_nonempty ι with h | h
  · exact ⟨1, one_pos, fun i => isEmptyElim i⟩
  · choose δ hδ h1 using hP
    obtain ⟨i0, hi0⟩ := Finite.exists_min δ
    exact ⟨δ i0, hδ i0, fun i => hmono i _ _ (hδ i0) (hi0 i) (h1 i)⟩

theorem Spec.Within.mono {δ δ' : ℝ} (h : δ ≤ δ') {C D : Fin e → Matrix (Fin p) (Fin p) ℝ} (hw : Within δ C D) : Within δ' C D :=
  fun k i j => (hw k i j).trans_le h

/-- The score of a covariance with the weights that are used by the code (C37). -/
noncomputable def codeNLL (n : Fin e → Nat) (D S : Fin e → Matrix (Fin p) (Fin p) ℝ) : ℝ :=
  ∑ k, (n k : ℝ) * gaussNLL (D k) (S k) / (∑ k, (n k : ℝ)) ^ (e - k.val)

/-- The weight of an environment in the score that is used by the code (C37). -/
noncomputable def codeWeight (n : Fin e → Nat) (k : Fin e) : ℝ := (n k : ℝ) / (∑ k, (n k : ℝ)) ^ (e - k.val)

theorem codeNLL_eq (n : Fin e → Nat) (D S : Fin e → Matrix (Fin p) (Fin p) ℝ) : codeNLL n D S = ∑ k, codeWeight n k * gaussNLL (D k) (S k) := by
  unfold codeNLL codeWeight
  exact Finset.sum_congr rfl fun k _ => by ring

theorem codeWeight_pos (he : 0 < e) {n : Fin e → Nat} (hn : ∀ k, 0 < n k) (k : Fin e) : 0 < codeWeight n k := by
  have hN : (0 : ℝ) < ∑ k, (n k : ℝ) := Finset.sum_pos (fun k _ => by exact_mod_cast hn k) ⟨⟨0, he⟩, Finset.mem_univ _⟩
  have : (0 : ℝ) < n k := by exact_mod_cast hn k
  unfold codeWeight
  positivity

/-- Sample sizes for which no environment has less than the share `ρ` of the weights of the code, or of the observations. -/
structure Spec.Balanced (ρ : ℝ) (n : Fin e → Nat) : Prop where
  pos : ∀ k, 0 < n k
  code : ∀ k, ρ * ∑ k, codeWeight n k ≤ codeWeight n k
  share : ∀ k, ρ * ∑ k, (n k : ℝ) ≤ n k

/-- Classes that do not approximate `C` are separated from covariances close to `C`, for balanced sample sizes. -/
theorem separation {ι : Type} [Finite ι] (cls : ι → Nat × Finset (Fin p) × Adj p) {C : Fin e → Matrix (Fin p) (Fin p) ℝ} (hC : ∀ k, (C k).PosDef)
    (he : 0 < e) {ρ : ℝ} (hρ : 0 < ρ) :
    ∃ δ > 0, ∀ c, ¬ Approximates (cls c).1 (cls c).2.1 (cls c).2.2 C → ∀ n : Fin e → Nat, Balanced ρ n →
      ∀ S : Fin e → Matrix (Fin p) (Fin p) ℝ, (∀ k, (S k).PosDef) → Within δ C S →
      ∀ D D₀ : Fin e → Matrix (Fin p) (Fin p) ℝ, EntailedWith (cls c).1 (cls c).2.1 (cls c).2.2 D → Within δ C D₀ → codeNLL n D₀ S < codeNLL n D S := by
  refine exists_uniform (fun c => ?_) (fun c δ δ' _ hle h => fun hna n hn S hS hw D D₀ hD hw₀ => h hna n hn S hS (hw.mono hle) D D₀ hD (hw₀.mono hle))
  by_cases hna : Approximates (cls c).1 (cls c).2.1 (cls c).2.2 C
  · exact ⟨1, one_pos, fun hc => absurd hna hc⟩
  obtain ⟨η, hη, δ, hδ, h1⟩ := C113_margin hna
  obtain ⟨δ₂, hδ₂, h2⟩ := excess_of_near hC (η := ρ * η) (by positivity)
  refine ⟨min δ δ₂, lt_min hδ hδ₂, fun _ n hn S hS hw D D₀ hD hw₀ => ?_⟩
  have hapos := codeWeight_pos he hn.pos
  have hs : 0 < ∑ k, codeWeight n k := Finset.sum_pos (fun k _ => hapos k) ⟨⟨0, he⟩, Finset.mem_univ _⟩
  obtain ⟨k0, hk0⟩ := h1 S hS (hw.mono (min_le_left _ _)) D hD
  rw [codeNLL_eq, codeNLL_eq]
  refine nll_sum_lt hapos hη (fun k => hD.posDef k) hS hk0 hn.code ?_
  have hr : ρ * (∑ k, codeWeight n k) * η / ∑ k, codeWeight n k = ρ * η := by
    field_simp
  rw [hr]
  exact h2 S D₀ (hw.mono (min_le_right _ _)) (hw₀.mono (min_le_right _ _))

/-- Almost optimal fits to data close to `C`, for sample sizes in which every environment has at least the share `ρ` of the observations. -/
theorem fit_close {C : Fin e → Matrix (Fin p) (Fin p) ℝ} (hC : ∀ k, (C k).PosDef) (he : 0 < e) {ρ : ℝ} (hρ : 0 < ρ) {θ : ℝ} (hθ : 0 < θ) :
    ∃ δ > 0, ∀ n : Fin e → Nat, (∀ k, 0 < n k) → (∀ k, ρ * ∑ k, (n k : ℝ) ≤ n k) → ∀ (l : Nat) (I : Finset (Fin p)) (A : Adj p),
      Approximates l I A C → ∀ S : Fin e → Matrix (Fin p) (Fin p) ℝ, (∀ k, (S k).PosDef) →
      Within δ C S → ∀ D : Fin e → Matrix (Fin p) (Fin p) ℝ, (∀ k, (D k).PosDef) →
      (∀ D', EntailedWith l I A D' → weightedNLL n D S ≤ weightedNLL n D' S + δ) → Within θ C D := by
  obtain ⟨η, hη, δ, hδ, h1⟩ := near_of_excess C hθ
  obtain ⟨δ₂, hδ₂, h2⟩ := excess_of_near hC (η := ρ * η / 2) (by positivity)
  refine ⟨min (min δ δ₂) (ρ * η / 2), lt_min (lt_min hδ hδ₂) (by positivity), fun n hn hsh l I A happ S hS hw D hD hopt => ?_⟩
  have hN : (0 : ℝ) < ∑ k, (n k : ℝ) := Finset.sum_pos (fun k _ => by exact_mod_cast hn k) ⟨⟨0, he⟩, Finset.mem_univ _⟩
  obtain ⟨a, ha⟩ : ∃ a : Fin e → ℝ, a = fun k => (n k : ℝ) / (∑ k, (n k : ℝ)) := ⟨_, rfl⟩
  have hapos : ∀ k, 0 < a k := fun k => by
    rw [ha]
    have : (0 : ℝ) < n k := by exact_mod_cast hn k
    positivity
  have hsum : ∑ k, a k = 1 := by
    rw [ha, ← Finset.sum_div]
    exact div_self hN.ne'
  have hnll : ∀ D S : Fin e → Matrix (Fin p) (Fin p) ℝ, weightedNLL n D S = ∑ k, a k * gaussNLL (D k) (S k) := fun D S => by
    unfold weightedNLL
    rw [ha, Finset.sum_div]
    exact Finset.sum_congr rfl fun k _ => by ring
  have hα : ∀ k, ρ ≤ a k := fun k => by
    rw [ha]
    exact (le_div_iff₀ hN).2 (hsh k)
  obtain ⟨D', hD', hw'⟩ := happ δ₂ hδ₂
  have h3 := h2 S D' (hw.mono ((min_le_left _ _).trans (min_le_right _ _))) hw'
  have h4 := hopt D' hD'
  rw [hnll, hnll] at h4
  have h5 : ∑ k, a k * gaussNLL (D' k) (S k) ≤ ∑ k, a k * (Real.log (S k).det + p) + ρ * η / 2 := by
    calc ∑ k, a k * gaussNLL (D' k) (S k) ≤ ∑ k, a k * (Real.log (S k).det + p + ρ * η / 2) :=
          Finset.sum_le_sum fun k _ => mul_le_mul_of_nonneg_left (h3 k).le (hapos k).le
      _ = ∑ k, a k * (Real.log (S k).det + p) + ρ * η / 2 := by
          simp only [mul_add, Finset.sum_add_distrib]
          rw [← Finset.sum_mul (s := Finset.univ) (f := a) (a := ρ * η / 2), hsum, one_mul]
  have h6 : min (min δ δ₂) (ρ * η / 2) ≤ ρ * η / 2 := min_le_right _ _
  have h7 := nll_excess_le hapos hD hS hρ hα (by linarith : ∑ k, a k * gaussNLL (D k) (S k) ≤ ∑ k, a k * (Real.log (S k).det + p) + ρ * η)
  exact fun k i j => h1 S hS (hw.mono ((min_le_left _ _).trans (min_le_left _ _))) k (D k) (hD k) (h7 k) i j

/-- Given sample sizes are balanced. -/
theorem balanced_of_pos (he : 0 < e) {n : Fin e → Nat} (hn : ∀ k, 0 < n k) : ∃ ρ₀ > 0, ∀ ρ ≤ ρ₀, Balanced ρ n := by
  have hN : (0 : ℝ) < ∑ k, (n k : ℝ) := Finset.sum_pos (fun k _ => by exact_mod_cast hn k) ⟨⟨0, he⟩, Finset.mem_univ _⟩
  have hpos := codeWeight_pos he hn
  have hs : 0 < ∑ k, codeWeight n k := Finset.sum_pos (fun k _ => hpos k) ⟨⟨0, he⟩, Finset.mem_univ _⟩
  obtain ⟨α, hα0, hα⟩ := exists_lower he hpos
  obtain ⟨β, hβ0, hβ⟩ := exists_lower he (a := fun k => (n k : ℝ)) (fun k => by exact_mod_cast hn k)
  refine ⟨min (α / ∑ k, codeWeight n k) (β / ∑ k, (n k : ℝ)), lt_min (by positivity) (by positivity), fun ρ hρ => ⟨hn, fun k => ?_, fun k => ?_⟩⟩
  · exact ((le_div_iff₀ hs).1 (hρ.trans (min_le_left _ _))).trans (hα k)
  · exact ((le_div_iff₀ hN).1 (hρ.trans (min_le_right _ _))).trans (hβ k)

/-- C113: almost optimal fits to data close to `C` entail covariances close to `C`, if the class of models approximates `C`. -/
theorem C113_fit_close {C : Fin e → Matrix (Fin p) (Fin p) ℝ} (hC : ∀ k, (C k).PosDef) (he : 0 < e) (n : Fin e → Nat) (hn : ∀ k, 0 < n k)
    {θ : ℝ} (hθ : 0 < θ) :
    ∃ δ > 0, ∀ (l : Nat) (I : Finset (Fin p)) (A : Adj p), Approximates l I A C → ∀ S : Fin e → Matrix (Fin p) (Fin p) ℝ, (∀ k, (S k).PosDef) →
      Within δ C S → ∀ D : Fin e → Matrix (Fin p) (Fin p) ℝ, (∀ k, (D k).PosDef) →
      (∀ D', EntailedWith l I A D' → weightedNLL n D S ≤ weightedNLL n D' S + δ) → Within θ C D := by
  obtain ⟨ρ, hρ, hb⟩ := balanced_of_pos he hn
  obtain ⟨δ, hδ, h⟩ := fit_close hC he hρ hθ
  exact ⟨δ, hδ, h n hn (hb ρ le_rfl).share⟩

/-! ## Runs -/

/-- A run on data close to `C`: the bound is the same for all sample sizes in which every environment has at least the share `ρ` of the weights. -/
theorem returned_balanced (candidates : List (Adj p)) (hG : ∀ G ∈ candidates, Nonneg G) (ns : List Nat) (C : Fin e → Matrix (Fin p) (Fin p) ℝ)
    (hC : ∀ k, (C k).PosDef) (he : 0 < e) {ρ : ℝ} (hρ : 0 < ρ) :
    ∃ δ > 0, ∀ (E : FitEnv p e) (data : Fin e → Sample p) (solverKnown pruneEdges : Bool) (folds : List Rat) (rs : Int)
      (training testG testI : List (Sample p)) (G : Adj p) (h0 : Nat) (P : Adj p) (I : Finset (Fin p)) (m : AnyModel p e),
      (∀ d h, GoodFit (E.fit d h)) → (∀ d h n A I m s, E.fit d h n A I = .ok (m, s) → m.1 = h) → (∀ f, IsArgsort f (E.argsort f)) →
      splitData (E.rng 42) (List.ofFn data) folds = .ok [training, testG, testI] →
      (∀ f ∈ [training, testG, testI], Balanced ρ fun k : Fin e => (f.getD k []).length) →
      (∀ f ∈ [training, testG, testI], (∀ k : Fin e, (E.cov (f.getD k [])).PosDef) ∧ Within δ C fun k => E.cov (f.getD k [])) →
      (∀ h ∈ ns, AlmostOptimal δ E.it h (foldData E.cov training e) (E.fit (foldData E.cov training e) h)) →
      G ∈ candidates → h0 ∈ ns → Approximates h0 Finset.univ G C →
      equivalenceClass E candidates data solverKnown pruneEdges (some ns) folds rs = .ok (P, I, m) →
      Approximates m.1 I m.A C := by
  -- the classes of models that a run can consider
  let cls : (Fin candidates.length × (Fin p → Fin p → Bool) × Finset (Fin p) × Fin ns.length) → Nat × Finset (Fin p) × Adj p :=
    fun x => (ns.get x.2.2.2, x.2.2.1, fun i j => if x.2.1 i j then candidates.get x.1 i j else 0)
  obtain ⟨δ₁, hδ₁, s1⟩ := separation cls hC he hρ
  obtain ⟨δ₂, hδ₂, s2⟩ := separation cls hC he hρ
  obtain ⟨δ₃, hδ₃, s3⟩ := fit_close hC he hρ (θ := min δ₁ δ₂) (lt_min hδ₁ hδ₂)
  refine ⟨min (min δ₁ δ₂) δ₃, lt_min (lt_min hδ₁ hδ₂) hδ₃, ?_⟩
  intro E data solverKnown pruneEdges folds rs training testG testI G h0 P I m hfit hlat harg hsplit hsize hcov hopt hGm hh0 happ h
  have hcls : ∀ n ∈ ns, ∀ (I : Finset (Fin p)) (A G' : Adj p), G' ∈ candidates → Subgraph A G' → ∃ c, cls c = (n, I, A) := by
    intro n hn I A G' hG' hsub
    obtain ⟨a, ha⟩ := List.get_of_mem hn
    obtain ⟨b, hb⟩ := List.get_of_mem hG'
    refine ⟨(b, fun i j => decide (A i j = G' i j), I, a), ?_⟩
    simp only [cls, ha, hb, Prod.mk.injEq, true_and, decide_eq_true_eq]
    funext i j
    rcases hsub i j with hc | hc
    · rw [if_pos hc, hc]
    · split_ifs with hd
      · exact hd.symm
      · exact hc.symm
  have sepG : ∀ n ∈ ns, ∀ (I : Finset (Fin p)) (A G' : Adj p), G' ∈ candidates → Subgraph A G' → ¬ Approximates n I A C →
      ∀ z : Fin e → Nat, Balanced ρ z → ∀ S : Fin e → Matrix (Fin p) (Fin p) ℝ, (∀ k, (S k).PosDef) → Within δ₁ C S →
      ∀ D D₀ : Fin e → Matrix (Fin p) (Fin p) ℝ, EntailedWith n I A D → Within δ₁ C D₀ → codeNLL z D₀ S < codeNLL z D S := by
    intro n hn I A G' hG' hsub
    obtain ⟨c, hc⟩ := hcls n hn I A G' hG' hsub
    have := s1 c
    rw [hc] at this
    exact this
  have sepI : ∀ n ∈ ns, ∀ (I : Finset (Fin p)) (A G' : Adj p), G' ∈ candidates → Subgraph A G' → ¬ Approximates n I A C →
      ∀ z : Fin e → Nat, Balanced ρ z → ∀ S : Fin e → Matrix (Fin p) (Fin p) ℝ, (∀ k, (S k).PosDef) → Within δ₂ C S →
      ∀ D D₀ : Fin e → Matrix (Fin p) (Fin p) ℝ, EntailedWith n I A D → Within δ₂ C D₀ → codeNLL z D₀ S < codeNLL z D S := by
    intro n hn I A G' hG' hsub
    obtain ⟨c, hc⟩ := hcls n hn I A G' hG' hsub
    have := s2 c
    rw [hc] at this
    exact this
  clear s1 s2 hcls
  obtain ⟨s, hmain⟩ : ∃ s, fitMain E data solverKnown (some ns) pruneEdges folds none none (some candidates) 42 = .ok (m, I, s) := by
    unfold equivalenceClass withIcpdag at h
    split at h
    · simp at h
    · rename_i m' I' s' hm'
      split at h
      · simp at h
      · cases h
        exact ⟨_, hm'⟩
  obtain ⟨t1, t2, t3, graphs, ns', z1, z2, z3, z4⟩ := fitMain_spec hfit hlat harg hmain
  rw [hsplit] at z1
  cases z1
  cases z2
  cases z3
  obtain ⟨q1, ⟨G', g1, g2, -⟩, hac, -, ⟨sc, v1, v2⟩, ⟨m0, s0, order, u1, -, -, -, ⟨sf, u5⟩, u6, u7⟩⟩ := z4 hG
  have hmA : Nonneg m.A := by
    intro a b
    rcases g2 a b with hc | hc
    · rw [hc]; exact hG G' g1 a b
    · rw [hc]
  obtain ⟨d, hd⟩ : ∃ d, d = foldData E.cov training e := ⟨_, rfl⟩
  have hdn : Balanced ρ d.nObs := by rw [hd]; exact hsize _ (by simp)
  have hdp : (∀ k, (d.covs k).PosDef) ∧ Within (min (min δ₁ δ₂) δ₃) C d.covs := by rw [hd]; exact hcov _ (by simp)
  rw [← hd] at v1 v2 u1 u5 u7 hopt
  have hGn : Balanced ρ (foldData E.cov testG e).nObs := hsize _ (by simp)
  have hIn : Balanced ρ (foldData E.cov testI e).nObs := hsize _ (by simp)
  have hGp : (∀ k, ((foldData E.cov testG e).covs k).PosDef) ∧ Within (min (min δ₁ δ₂) δ₃) C (foldData E.cov testG e).covs := hcov _ (by simp)
  have hIp : (∀ k, ((foldData E.cov testI e).covs k).PosDef) ∧ Within (min (min δ₁ δ₂) δ₃) C (foldData E.cov testI e).covs := hcov _ (by simp)
  -- the models of the fits
  have hmod : ∀ n ∈ ns, ∀ A J m' s', Nonneg A → FittedTo E.it (E.fit d n) A J m' s' → ∃ D, EntailedWith n J A D ∧
      (Approximates n J A C → Within (min δ₁ δ₂) C D) ∧
      ∀ t : Data p e, (∀ k, 0 < t.nObs k) → m'.scoreOn t = .ok (some (codeNLL t.nObs D t.covs)) := by
    intro n hn A J m' s' hA hf
    obtain ⟨hJ, B, D, hprop, hDc, ho⟩ := hopt n hn A J m' s' hA hf
    have hA' : m'.A = A := (hf.good (hfit d n)).1
    have hl' : m'.1 = n := fitted_latents (hlat d n) hf
    have hent : EntailedWith m'.1 J m'.A D := proper_entailed hprop (I := J) hJ hDc
    have hent' : EntailedWith n J A D := by
      rw [hl', hA'] at hent
      exact hent
    refine ⟨D, hent', fun ha => ?_, fun t ht => ?_⟩
    · refine s3 d.nObs hdn.pos hdn.share n J A ha d.covs hdp.1 (hdp.2.mono (min_le_right _ _)) D (fun k => hent'.posDef k) fun D' hD' => ?_
      exact (ho D' hD').trans (by linarith [min_le_right (min δ₁ δ₂) δ₃])
    · obtain ⟨A1, B1, g1, o1, p1, k1, k2, k3, k4⟩ := hprop
      have hN : ∑ k, t.nObs k ≠ 0 := (Finset.sum_pos (fun k _ => ht k) ⟨⟨0, he⟩, Finset.mem_univ _⟩).ne'
      have := C37_actual_score E.it A1 k1 B1 g1 o1 p1 _ k2 k3 k4 t.nObs hN t.covs D hDc
      rw [score_upToB] at this
      exact this
  have hGpos : ∀ k, 0 < (foldData E.cov testG e).nObs k := hGn.pos
  have hIpos : ∀ k, 0 < (foldData E.cov testI e).nObs k := hIn.pos
  -- the graph phase
  have hval : ∀ n ∈ ns, ∀ sc A, Validation E.it (E.fit d n) pruneEdges candidates (foldData E.cov testG e) sc A →
      ∃ x D, sc = some x ∧ EntailedWith n Finset.univ A D ∧ x = codeNLL (foldData E.cov testG e).nObs D (foldData E.cov testG e).covs ∧
        ∀ H ∈ candidates, Approximates n Finset.univ H C → ∃ D₀, Within δ₁ C D₀ ∧ x ≤ codeNLL (foldData E.cov testG e).nObs D₀ (foldData E.cov testG e).covs := by
    rintro n hn sc A ⟨ms, ob, y1, ⟨mm, y2, y3, y4⟩, y5⟩
    obtain ⟨w1, w2⟩ := pruneGraphs_models (hfit d n) hG (ScoreObj.ok_new E.it _ 0) y1
    obtain ⟨w3, s', w4⟩ := w2 mm y2
    obtain ⟨D, e1, -, e3⟩ := hmod n hn _ _ _ _ w3 w4
    have e4 := e3 _ hGpos
    rw [y4] at e4
    cases e4
    refine ⟨_, D, rfl, by rw [← y3]; exact e1, rfl, fun H hH hap => ?_⟩
    obtain ⟨m', hm', hm'A⟩ := w1 H hH
    obtain ⟨s', l1, l2⟩ := y5 m' hm'
    obtain ⟨w5, s'', w6⟩ := w2 m' hm'
    obtain ⟨D', f1, f2, f3⟩ := hmod n hn _ _ _ _ w5 w6
    have f4 := f3 _ hGpos
    rw [l1] at f4
    cases f4
    refine ⟨D', (f2 (by rw [hm'A]; exact hap)).mono (min_le_left _ _), ?_⟩
    rcases l2 with l2 | ⟨x, y, l2, l3, l4⟩
    · simp at l2
    · cases l2
      cases l3
      exact l4
  have hall := v2 (fun n hn sc A hv => by
    obtain ⟨x, D, rfl, -⟩ := hval n hn sc A hv
    simp)
  have hgraph : Approximates m.1 Finset.univ m.A C := by
    by_contra hna
    obtain ⟨x, D, rfl, e1, e2, -⟩ := hval _ q1 _ _ v1
    obtain ⟨x', y, A, r1, r2, r3⟩ := hall h0 hh0
    cases r1
    obtain ⟨y', D', e3, -, -, e5⟩ := hval _ hh0 _ _ r2
    cases e3
    obtain ⟨D₀, e6, e7⟩ := e5 G hGm happ
    have e8 : x ≤ y := by
      rcases r3 with r3 | ⟨r3, -⟩
      · exact r3.le
      · exact r3.le
    have e9 := sepG _ q1 _ _ _ g1 g2 hna _ hGn _ hGp.1 (hGp.2.mono ((min_le_left _ _).trans (min_le_left _ _))) D D₀ e1 e6
    linarith
  -- the target phase
  by_contra hna
  obtain ⟨D, e1, -, e3⟩ := hmod _ q1 _ _ _ _ hmA u5
  have e4 := e3 _ hIpos
  rw [u6] at e4
  cases e4
  obtain ⟨mi, sfi, si, i1, i2, i3⟩ := u7 0 (Nat.zero_le _)
  rw [show Finset.univ \ (order.take 0).toFinset = Finset.univ by simp] at i1
  obtain ⟨D₀, f1, f2, f3⟩ := hmod _ q1 _ _ _ _ hmA i1
  have f4 := f3 _ hIpos
  rw [i2] at f4
  cases f4
  have f5 := sepI _ q1 _ _ _ g1 g2 hna _ hIn _ hIp.1 (hIp.2.mono ((min_le_left _ _).trans (min_le_right _ _))) D D₀ e1 ((f2 hgraph).mono (min_le_right _ _))
  rcases i3 with i3 | ⟨x, y, i3, i4, i5⟩
  · simp at i3
  · cases i3
    cases i4
    linarith

/-- C113: for every list of candidate graphs, numbers of latents, covariances `C` and sample sizes there is a bound `δ` such that the following
holds for all data, options and numerical libraries.  If the covariances of the three folds differ from `C` by less than `δ`, the fits are
within `δ` of the optimum, and some candidate approximates `C` with one of the numbers of latents, then the returned graph with the returned
targets and number of latents approximates `C`. -/
theorem C113_returned (candidates : List (Adj p)) (hG : ∀ G ∈ candidates, Nonneg G) (ns : List Nat) (C : Fin e → Matrix (Fin p) (Fin p) ℝ)
    (hC : ∀ k, (C k).PosDef) (he : 0 < e) (nT nG nI : Fin e → Nat) (hnT : ∀ k, 0 < nT k) (hnG : ∀ k, 0 < nG k) (hnI : ∀ k, 0 < nI k) :
    ∃ δ > 0, ∀ (E : FitEnv p e) (data : Fin e → Sample p) (solverKnown pruneEdges : Bool) (folds : List Rat) (rs : Int)
      (training testG testI : List (Sample p)) (G : Adj p) (h0 : Nat) (P : Adj p) (I : Finset (Fin p)) (m : AnyModel p e),
      (∀ d h, GoodFit (E.fit d h)) → (∀ d h n A I m s, E.fit d h n A I = .ok (m, s) → m.1 = h) → (∀ f, IsArgsort f (E.argsort f)) →
      splitData (E.rng 42) (List.ofFn data) folds = .ok [training, testG, testI] →
      (∀ k : Fin e, (training.getD k []).length = nT k ∧ (testG.getD k []).length = nG k ∧ (testI.getD k []).length = nI k) →
      (∀ f ∈ [training, testG, testI], (∀ k : Fin e, (E.cov (f.getD k [])).PosDef) ∧ Within δ C fun k => E.cov (f.getD k [])) →
      (∀ h ∈ ns, AlmostOptimal δ E.it h (foldData E.cov training e) (E.fit (foldData E.cov training e) h)) →
      G ∈ candidates → h0 ∈ ns → Approximates h0 Finset.univ G C →
      equivalenceClass E candidates data solverKnown pruneEdges (some ns) folds rs = .ok (P, I, m) →
      Approximates m.1 I m.A C := by
  obtain ⟨ρ₁, h1, b1⟩ := balanced_of_pos he hnT
  obtain ⟨ρ₂, h2, b2⟩ := balanced_of_pos he hnG
  obtain ⟨ρ₃, h3, b3⟩ := balanced_of_pos he hnI
  obtain ⟨δ, hδ, h⟩ := returned_balanced candidates hG ns C hC he (ρ := min (min ρ₁ ρ₂) ρ₃) (lt_min (lt_min h1 h2) h3)
  refine ⟨δ, hδ, fun E data solverKnown pruneEdges folds rs training testG testI G h0 P I m hfit hlat harg hsplit hsize => ?_⟩
  refine h E data solverKnown pruneEdges folds rs training testG testI G h0 P I m hfit hlat harg hsplit ?_
  intro f hf
  simp only [List.mem_cons, List.not_mem_nil, or_false] at hf
  rcases hf with rfl | rfl | rfl
  · rw [funext fun k => (hsize k).1]
    exact b1 _ ((min_le_left _ _).trans (min_le_left _ _))
  · rw [funext fun k => (hsize k).2.1]
    exact b2 _ ((min_le_left _ _).trans (min_le_right _ _))
  · rw [funext fun k => (hsize k).2.2]
    exact b3 _ (min_le_right _ _)

end Verif
