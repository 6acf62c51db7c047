import Verif.Proof.GlobalMarkov
import Verif.Proof.LModel
import Mathlib.Algebra.MvPolynomial.Equiv
import Mathlib.Algebra.MvPolynomial.Funext
import Mathlib.Topology.Algebra.MvPolynomial
import Mathlib.MeasureTheory.Constructions.Pi
import Mathlib.MeasureTheory.Constructions.BorelSpace.Basic
import Mathlib.MeasureTheory.Measure.Lebesgue.Basic
import Mathlib.LinearAlgebra.Matrix.Adjugate

/-!
# Almost all weights are faithful

For almost all weights the only vanishing partial correlations are those that d-separation forces.  The partial covariance, multiplied by a
determinant, is a polynomial in the weights, so one point where it does not vanish is enough; such a point is found by induction over the nodes.
-/

namespace Verif

open Spec Matrix MeasureTheory

/-! ### Zeros of polynomials -/

theorem poly_null_fin : ∀ {n : Nat} (q : MvPolynomial (Fin n) ℝ), q ≠ 0 → volume {x : Fin n → ℝ | MvPolynomial.eval x q = 0} = 0
  | 0, q, hq => by
    have : {x : Fin 0 → ℝ | MvPolynomial.eval x q = 0} = ∅ := by
      rw [Set.eq_empty_iff_forall_notMem]
      intro x hx
      refine hq (MvPolynomial.funext (fun y => ?_))
      rw [Subsingleton.elim y x, map_zero]
      exact hx
    rw [this, measure_empty]
  | n + 1, q, hq => by
    have hmeas : MeasurableSet {x : Fin (n + 1) → ℝ | MvPolynomial.eval x q = 0} :=
      (isClosed_eq (MvPolynomial.continuous_eval q) continuous_const).measurableSet
    have hmp := (volume_preserving_piFinSuccAbove (fun _ : Fin (n + 1) => ℝ) 0).symm
    rw [← hmp.measure_preimage hmeas.nullMeasurableSet]
    have hmeas' := hmp.measurable hmeas
    rw [Measure.volume_eq_prod, Measure.measure_prod_null hmeas']
    set P := MvPolynomial.finSuccEquiv ℝ n q with hP
    have hP0 : P ≠ 0 := by
      rw [hP, Ne, EmbeddingLike.map_eq_zero_iff]
      exact hq
    have hfin : {y : ℝ | P.eval (MvPolynomial.C y) = 0}.Finite := by
      refine Set.Finite.of_finite_image (f := fun y => (MvPolynomial.C y : MvPolynomial (Fin n) ℝ)) ?_
        (fun a _ b _ h => MvPolynomial.C_injective _ _ h)
      refine (Polynomial.finite_setOfPred_isRoot hP0).subset ?_
      rintro _ ⟨y, hy, rfl⟩
      exact hy
    have hae : ∀ᵐ y : ℝ, y ∉ {y : ℝ | P.eval (MvPolynomial.C y) = 0} := measure_eq_zero_iff_ae_notMem.1 (hfin.measure_zero volume)
    filter_upwards [hae] with y hy
    have h1 : (Prod.mk y ⁻¹' ((MeasurableEquiv.piFinSuccAbove (fun _ : Fin (n + 1) => ℝ) 0).symm ⁻¹'
        {x : Fin (n + 1) → ℝ | MvPolynomial.eval x q = 0})) = {x : Fin n → ℝ | MvPolynomial.eval x (P.eval (MvPolynomial.C y)) = 0} := by
      ext x
      simp only [Set.mem_preimage, Set.mem_ofPred_eq]
      have h2 : (MeasurableEquiv.piFinSuccAbove (fun _ : Fin (n + 1) => ℝ) 0).symm (y, x) = Fin.cons y x := by
        funext i
        refine Fin.cases ?_ (fun i => ?_) i <;> simp [MeasurableEquiv.piFinSuccAbove]
      rw [h2, MvPolynomial.eval_eq_eval_mv_eval', Polynomial.eval_map, ← Polynomial.eval₂_at_apply (MvPolynomial.eval x), MvPolynomial.eval_C]
    rw [h1]
    exact poly_null_fin _ hy

theorem poly_null {σ : Type} [Fintype σ] (q : MvPolynomial σ ℝ) (hq : q ≠ 0) : volume {x : σ → ℝ | MvPolynomial.eval x q = 0} = 0 := by
  let e := Fintype.equivFin σ
  have hmp := volume_measurePreserving_piCongrLeft (fun _ : σ => ℝ) e.symm
  have hmeas : MeasurableSet {x : σ → ℝ | MvPolynomial.eval x q = 0} :=
    (isClosed_eq (MvPolynomial.continuous_eval q) continuous_const).measurableSet
  rw [← hmp.measure_preimage hmeas.nullMeasurableSet]
  have h1 : (MeasurableEquiv.piCongrLeft (fun _ : σ => ℝ) e.symm) ⁻¹' {x : σ → ℝ | MvPolynomial.eval x q = 0} =
      {x : Fin (Fintype.card σ) → ℝ | MvPolynomial.eval x (MvPolynomial.rename e q) = 0} := by
    ext x
    simp only [Set.mem_preimage, Set.mem_ofPred_eq, MvPolynomial.eval_rename]
    have : (MeasurableEquiv.piCongrLeft (fun _ : σ => ℝ) e.symm) x = x ∘ e := by
      funext i
      have := Equiv.piCongrLeft_apply_apply (fun _ : σ => ℝ) e.symm x (e i)
      rw [Equiv.symm_apply_apply] at this
      exact this
    rw [this]
  rw [h1]
  exact poly_null_fin _ (fun h => hq ((MvPolynomial.rename_injective e e.injective) (by rw [h, map_zero])))

/-! ### Structural equations with given weights -/

variable {V : Type} [Fintype V] [DecidableEq V]

open Classical in
/-- The weights `W`, at the edges only. -/
noncomputable def semB (E : V → V → Prop) (W : V × V → ℝ) : Matrix V V ℝ := Matrix.of (fun i j => if E i j then W (i, j) else 0)

/-- The covariance for weights `W` and noise variances `ω`. -/
noncomputable def semC (E : V → V → Prop) (ω : V → ℝ) (W : V × V → ℝ) : Matrix V V ℝ :=
  (1 - (semB E W)ᵀ)⁻¹ * Matrix.diagonal ω * ((1 - (semB E W)ᵀ)⁻¹)ᵀ

omit [DecidableEq V] in
theorem exists_rank_of_acyclic {E : V → V → Prop} (h : ∀ i, ¬ Relation.TransGen E i i) : ∃ f : V → Nat, ∀ i j, E i j → f i < f j := by
  classical
  refine ⟨fun i => (Finset.univ.filter (fun k => Relation.TransGen E k i)).card, fun i j hij => Finset.card_lt_card ?_⟩
  rw [Finset.ssubset_iff_of_subset]
  · refine ⟨i, ?_, ?_⟩
    · simpa using Relation.TransGen.single hij
    · simpa using h i
  · intro k hk
    simp only [Finset.mem_filter, Finset.mem_univ, true_and] at hk ⊢
    exact hk.tail hij

theorem semB_det {E : V → V → Prop} (h : ∀ i, ¬ Relation.TransGen E i i) (W : V × V → ℝ) : (1 - (semB E W)ᵀ).det = 1 := by
  obtain ⟨f, hf⟩ := exists_rank_of_acyclic h
  have h1 : (1 - semB E W).det = 1 := by
    refine det_one_sub_of_rank _ f (fun i j hij => hf i j ?_)
    by_contra hc
    exact hij (by simp [semB, hc])
  rw [show 1 - (semB E W)ᵀ = (1 - semB E W)ᵀ by rw [Matrix.transpose_sub, Matrix.transpose_one], Matrix.det_transpose, h1]

theorem sem_linear {E : V → V → Prop} (h : ∀ i, ¬ Relation.TransGen E i i) {ω : V → ℝ} (hω : ∀ i, 0 < ω i) (W : V × V → ℝ) :
    LinearSEM E (semB E W) (semC E ω W) ω := by
  have hu : IsUnit (1 - (semB E W)ᵀ).det := by rw [semB_det h]; exact isUnit_one
  have hut : IsUnit (1 - (semB E W)ᵀ)ᵀ.det := by rwa [Matrix.det_transpose]
  refine ⟨h, fun i j hij => ?_, ?_, hω⟩
  · by_contra hc
    exact hij (by simp [semB, hc])
  · unfold semC
    rw [Matrix.transpose_nonsing_inv, ← Matrix.mul_assoc, ← Matrix.mul_assoc, Matrix.mul_nonsing_inv _ hu, Matrix.one_mul, Matrix.mul_assoc,
      Matrix.nonsing_inv_mul _ hut, Matrix.mul_one]

/-- The covariances of the variables in an ancestral set depend only on the weights of the edges in this set. -/
theorem LinearSEM.agree {E : V → V → Prop} {B C B' C' : Matrix V V ℝ} {ω : V → ℝ} (h : LinearSEM E B C ω) (h' : LinearSEM E B' C' ω)
    {U : Finset V} (hU : ∀ i j, E i j → j ∈ U → i ∈ U) (hB : ∀ i, ∀ j ∈ U, B i j = B' i j) : ∀ i ∈ U, ∀ j ∈ U, C i j = C' i j := by
  have hwf := wf_of_acyclic h.acyclic
  have hN : ∀ s ∈ U, ∀ k ∈ U, C s k - ∑ j, B j s * C j k = C' s k - ∑ j, B' j s * C' j k := by
    intro s hs k
    induction k using hwf.induction with
    | _ k ih =>
      intro hk
      have e1 := h.noise_cov s k
      have e2 := h'.noise_cov s k
      have e3 : ∑ i, (C s i - ∑ j, B j s * C j i) * B i k = ∑ i, (C' s i - ∑ j, B' j s * C' j i) * B' i k := by
        refine Finset.sum_congr rfl (fun i _ => ?_)
        rw [← hB i k hk]
        by_cases hi : B i k = 0
        · rw [hi, mul_zero, mul_zero]
        · have he := h.respects i k hi
          rw [ih i (Relation.TransGen.single he) (hU i k he hk)]
      linarith
  intro s
  induction s using hwf.induction with
  | _ s ih =>
    intro hs k hk
    have e1 := hN s hs k hk
    have e2 : ∑ j, B j s * C j k = ∑ j, B' j s * C' j k := by
      refine Finset.sum_congr rfl (fun j _ => ?_)
      rw [← hB j s hs]
      by_cases hj : B j s = 0
      · rw [hj, zero_mul, zero_mul]
      · have he := h.respects j s hj
        rw [ih j (Relation.TransGen.single he) (hU j s he hs) k hk]
    linarith

/-- `ResidZero` depends on the covariances of the variables involved only. -/
theorem ResidZero.congr {C C' : Matrix V V ℝ} {U Z : Finset V} (hZ : Z ⊆ U) {a b : V} (ha : a ∈ U) (hb : b ∈ U)
    (h : ∀ i ∈ U, ∀ j ∈ U, C i j = C' i j) (hr : ResidZero C Z a b) : ResidZero C' Z a b := by
  intro β hβ
  have hs : ∀ j ∈ U, ∑ i, β i * C i j = ∑ i, β i * C' i j := by
    intro j hj
    refine Finset.sum_congr rfl (fun i _ => ?_)
    by_cases hi : i ∈ Z
    · rw [h i (hZ hi) j hj]
    · rw [hβ.1 i hi, zero_mul, zero_mul]
  rw [← h a ha b hb, ← hs b hb]
  refine hr β ⟨hβ.1, fun z hz => ?_⟩
  rw [h a ha z (hZ hz), hs z (hZ hz)]
  exact hβ.2 z hz

/-! ### The partial covariance as a polynomial -/

/-- The partial covariance times the determinant of the covariance of the conditioning variables. -/
def pcovDet {R : Type} [CommRing R] (C : Matrix V V R) (Z : Finset V) (a b : V) : R :=
  (C.submatrix (Subtype.val : {z // z ∈ Z} → V) Subtype.val).det * C a b -
    ∑ z : {z // z ∈ Z}, ∑ w : {z // z ∈ Z}, C a z.1 * (C.submatrix (Subtype.val : {z // z ∈ Z} → V) Subtype.val).adjugate z w * C w.1 b

theorem pcovDet_eq_zero_iff {C : Matrix V V ℝ} (hC : C.PosDef) (Z : Finset V) (a b : V) : pcovDet C Z a b = 0 ↔ ResidZero C Z a b := by
  classical
  have hM : (C.submatrix (Subtype.val : {z // z ∈ Z} → V) Subtype.val).PosDef := hC.submatrix Subtype.val_injective
  unfold pcovDet
  set M := C.submatrix (Subtype.val : {z // z ∈ Z} → V) Subtype.val with hMd
  have hdet : M.det ≠ 0 := ne_of_gt hM.det_pos
  obtain ⟨β, hβ⟩ := exists_regression hC Z a
  have hsum : ∀ j, ∑ i, β i * C i j = ∑ w : {z // z ∈ Z}, β w.1 * C w.1 j := by
    intro j
    rw [← Finset.sum_subset (Finset.subset_univ Z) (fun i _ hi => by rw [hβ.1 i hi, zero_mul]), ← Finset.sum_coe_sort Z]
  have hβM : (fun w : {z // z ∈ Z} => β w.1) ᵥ* M = fun z => C a z.1 := by
    funext z
    rw [hβ.2 z.1 z.2, hsum]
    rfl
  have hadj : ∀ w : {z // z ∈ Z}, ∑ z : {z // z ∈ Z}, C a z.1 * M.adjugate z w = M.det * β w.1 := by
    intro w
    have h1 : (fun z : {z // z ∈ Z} => C a z.1) ᵥ* M.adjugate = M.det • (fun w : {z // z ∈ Z} => β w.1) := by
      rw [← hβM, Matrix.vecMul_vecMul, Matrix.mul_adjugate, Matrix.vecMul_smul, Matrix.vecMul_one]
    exact congrFun h1 w
  have h2 : ∑ z : {z // z ∈ Z}, ∑ w : {z // z ∈ Z}, C a z.1 * M.adjugate z w * C w.1 b = M.det * ∑ i, β i * C i b := by
    rw [Finset.sum_comm, hsum, Finset.mul_sum]
    refine Finset.sum_congr rfl (fun w _ => ?_)
    rw [← Finset.sum_mul, hadj, mul_assoc]
  rw [h2, ← mul_sub, mul_eq_zero, or_iff_right hdet, sub_eq_zero]
  constructor
  · intro h β' hβ'
    rw [regression_unique hC hβ hβ']
    exact h
  · exact fun h => h β hβ

omit [Fintype V] in
theorem pcovDet_map {R S : Type} [CommRing R] [CommRing S] (φ : R →+* S) (C : Matrix V V R) (Z : Finset V) (a b : V) :
    pcovDet (C.map φ) Z a b = φ (pcovDet C Z a b) := by
  unfold pcovDet
  rw [map_sub, map_mul, RingHom.map_det, map_sum]
  have h1 : φ.mapMatrix (C.submatrix (Subtype.val : {z // z ∈ Z} → V) Subtype.val) =
      (C.map φ).submatrix (Subtype.val : {z // z ∈ Z} → V) Subtype.val := rfl
  rw [h1]
  congr 1
  refine Finset.sum_congr rfl (fun z _ => ?_)
  rw [map_sum]
  refine Finset.sum_congr rfl (fun w _ => ?_)
  rw [map_mul, map_mul, ← h1, ← RingHom.map_adjugate]
  rfl

open Classical in
/-- The covariance as a matrix of polynomials in the weights. -/
noncomputable def polyC (E : V → V → Prop) (ω : V → ℝ) : Matrix V V (MvPolynomial (V × V) ℝ) :=
  let T : Matrix V V (MvPolynomial (V × V) ℝ) := 1 - (Matrix.of (fun i j => if E i j then MvPolynomial.X (i, j) else 0))ᵀ
  T.adjugate * Matrix.diagonal (fun i => MvPolynomial.C (ω i)) * T.adjugateᵀ

theorem polyC_eval {E : V → V → Prop} (h : ∀ i, ¬ Relation.TransGen E i i) (ω : V → ℝ) (W : V × V → ℝ) :
    (polyC E ω).map (MvPolynomial.eval W) = semC E ω W := by
  classical
  unfold polyC semC
  set T : Matrix V V (MvPolynomial (V × V) ℝ) := 1 - (Matrix.of (fun i j => if E i j then MvPolynomial.X (i, j) else 0))ᵀ with hT
  have hTm : T.map (MvPolynomial.eval W) = 1 - (semB E W)ᵀ := by
    ext i j
    simp only [hT, Matrix.map_apply, Matrix.sub_apply, Matrix.transpose_apply, Matrix.of_apply, semB, Matrix.one_apply, map_sub]
    congr 1
    · split_ifs <;> simp
    · split_ifs <;> simp
  have hadj : T.adjugate.map (MvPolynomial.eval W) = (1 - (semB E W)ᵀ)⁻¹ := by
    have h1 := RingHom.map_adjugate (MvPolynomial.eval W) T
    rw [RingHom.mapMatrix_apply, RingHom.mapMatrix_apply, hTm] at h1
    rw [h1, Matrix.inv_def, semB_det h, Ring.inverse_one, one_smul]
  rw [Matrix.map_mul, Matrix.map_mul, hadj]
  congr 1
  · congr 1
    rw [Matrix.diagonal_map (map_zero _)]
    congr 1
    funext i
    simp
  · rw [Matrix.transpose_map, hadj]

theorem resid_poly {E : V → V → Prop} (h : ∀ i, ¬ Relation.TransGen E i i) {ω : V → ℝ} (hω : ∀ i, 0 < ω i) (Z : Finset V) (a b : V)
    (W : V × V → ℝ) : MvPolynomial.eval W (pcovDet (polyC E ω) Z a b) = 0 ↔ ResidZero (semC E ω W) Z a b := by
  rw [← pcovDet_eq_zero_iff (sem_linear h hω W).posDef, ← polyC_eval h, pcovDet_map]

/-- Almost all weights give a non-zero partial correlation wherever some weights do. -/
theorem ae_generic {E : V → V → Prop} (h : ∀ i, ¬ Relation.TransGen E i i) {ω : V → ℝ} (hω : ∀ i, 0 < ω i) :
    ∀ᵐ W : V × V → ℝ, ∀ (Z : Finset V) (a b : V), (∃ W', ¬ ResidZero (semC E ω W') Z a b) → ¬ ResidZero (semC E ω W) Z a b := by
  rw [ae_all_iff]
  intro Z
  rw [ae_all_iff]
  intro a
  rw [ae_all_iff]
  intro b
  by_cases hex : ∃ W', ¬ ResidZero (semC E ω W') Z a b
  · obtain ⟨W', hW'⟩ := hex
    have hne : pcovDet (polyC E ω) Z a b ≠ 0 := by
      intro hc
      refine hW' ((resid_poly h hω Z a b W').1 ?_)
      rw [hc, map_zero]
    have hae : ∀ᵐ W : V × V → ℝ, W ∉ {W | MvPolynomial.eval W (pcovDet (polyC E ω) Z a b) = 0} :=
      measure_eq_zero_iff_ae_notMem.1 (poly_null _ hne)
    filter_upwards [hae] with W hW _
    rw [← resid_poly h hω]
    exact hW
  · exact Filter.Eventually.of_forall (fun W hc => absurd hc hex)

/-! ### Induction -/

omit [Fintype V] in
theorem reach_last_not_mem {E : V → V → Prop} {U Z : Finset V} {s a v : V} {m : Bool} (hs : ∀ j ∈ U, ¬ E s j) (has : a ≠ s) (hsZ : s ∉ Z)
    (h : Reach (Inside E U) Z a v m) : (v ≠ s → Reach (Inside E (U.erase s)) Z a v m) ∧
      (v = s → m = true ∧ ∃ k m', E k s ∧ k ∈ U ∧ k ≠ s ∧ k ∉ Z ∧ Reach (Inside E (U.erase s)) Z a k m') := by
  have hlast : ∀ {j}, ¬ Inside E U s j := fun h => hs _ h.2.2 h.1
  have herase : ∀ {i j}, Inside E U i j → i ≠ s → j ≠ s → Inside E (U.erase s) i j := fun h hi hj =>
    ⟨h.1, Finset.mem_erase.2 ⟨hi, h.2.1⟩, Finset.mem_erase.2 ⟨hj, h.2.2⟩⟩
  induction h with
  | start => exact ⟨fun _ => Reach.start, fun hc => absurd hc has⟩
  | @out v w m _ hv he ih =>
    have hvs : v ≠ s := by
      rintro rfl
      exact hlast he
    refine ⟨fun hw => (ih.1 hvs).out hv (herase he hvs hw), ?_⟩
    rintro rfl
    exact ⟨rfl, v, m, he.1, he.2.1, hvs, hv, ih.1 hvs⟩
  | @back v w _ hv he ih =>
    have hvs : v ≠ s := fun hc => by simpa using (ih.2 hc).1
    have hws : w ≠ s := by
      rintro rfl
      exact hlast he
    exact ⟨fun _ => (ih.1 hvs).back hv (herase he hws hvs), fun hc => absurd hc hws⟩
  | @coll v w _ hv he ih =>
    have hvs : v ≠ s := by
      rintro rfl
      exact hsZ hv
    have hws : w ≠ s := by
      rintro rfl
      exact hlast he
    exact ⟨fun _ => (ih.1 hvs).coll hv (herase he hws hvs), fun hc => absurd hc hws⟩

omit [Fintype V] in
theorem reach_insert_avoid {E : V → V → Prop} {U Z : Finset V} {s a v : V} {m : Bool} (hno : ¬ ∃ m, Reach (Inside E U) Z a s m)
    (h : Reach (Inside E U) (insert s Z) a v m) : v ≠ s ∧ Reach (Inside E (U.erase s)) Z a v m := by
  have hsub : ∀ {i j}, Inside E (U.erase s) i j → Inside E U i j := fun h =>
    ⟨h.1, Finset.mem_of_mem_erase h.2.1, Finset.mem_of_mem_erase h.2.2⟩
  have herase : ∀ {i j}, Inside E U i j → i ≠ s → j ≠ s → Inside E (U.erase s) i j := fun h hi hj =>
    ⟨h.1, Finset.mem_erase.2 ⟨hi, h.2.1⟩, Finset.mem_erase.2 ⟨hj, h.2.2⟩⟩
  induction h with
  | start =>
    refine ⟨?_, Reach.start⟩
    rintro rfl
    exact hno ⟨_, Reach.start⟩
  | @out v w m _ hv he ih =>
    have hvZ : v ∉ Z := fun hc => hv (Finset.mem_insert_of_mem hc)
    have hws : w ≠ s := by
      rintro rfl
      exact hno ⟨_, (ih.2.congr (fun _ _ => hsub)).out hvZ he⟩
    exact ⟨hws, ih.2.out hvZ (herase he ih.1 hws)⟩
  | @back v w _ hv he ih =>
    have hvZ : v ∉ Z := fun hc => hv (Finset.mem_insert_of_mem hc)
    have hws : w ≠ s := by
      rintro rfl
      exact hno ⟨_, (ih.2.congr (fun _ _ => hsub)).back hvZ he⟩
    exact ⟨hws, ih.2.back hvZ (herase he hws ih.1)⟩
  | @coll v w _ hv he ih =>
    have hvZ : v ∈ Z := (Finset.mem_insert.1 hv).resolve_left ih.1
    have hws : w ≠ s := by
      rintro rfl
      exact hno ⟨_, (ih.2.congr (fun _ _ => hsub)).coll hvZ he⟩
    exact ⟨hws, ih.2.coll hvZ (herase he hws ih.1)⟩

/-- `W` with the edges into `s` replaced. -/
def setColumn (W : V × V → ℝ) (s : V) (x : V → ℝ) : V × V → ℝ := fun e => if e.2 = s then x e.1 else W e

theorem exists_resid_ne {E : V → V → Prop} (h : ∀ i, ¬ Relation.TransGen E i i) {ω : V → ℝ} (hω : ∀ i, 0 < ω i) (n : Nat) :
    ∀ U : Finset V, U.card = n → (∀ i j, E i j → j ∈ U → i ∈ U) → ∀ Z ⊆ U, ∀ a ∈ U, ∀ b ∈ U, a ∉ Z → b ∉ Z →
      (∃ m, Reach (Inside E U) Z a b m) → ∃ W, ¬ ResidZero (semC E ω W) Z a b := by
  obtain ⟨W, hW⟩ := (ae_generic h hω).exists
  have hP := fun W => (sem_linear h hω W).posDef
  have hself : ∀ W (Z : Finset V) a, a ∉ Z → ¬ ResidZero (semC E ω W) Z a a := by
    intro W Z a ha hr
    obtain ⟨α, hα⟩ := exists_regression (hP W) Z a
    have := resid_self_pos (hP W) ha hα
    rw [← hr α hα, sub_self] at this
    exact lt_irrefl _ this
  induction n with
  | zero =>
    intro U hU _ Z _ a ha
    rw [Finset.card_eq_zero] at hU
    subst hU
    exact absurd ha (Finset.notMem_empty a)
  | succ n ih =>
    intro U hU hcl
    obtain ⟨s, hsU, hs⟩ := exists_last h (U := U) (Finset.card_pos.1 (by omega))
    have hcard : (U.erase s).card = n := by
      rw [Finset.card_erase_of_mem hsU, hU]
      rfl
    have hcl' : ∀ i j, E i j → j ∈ U.erase s → i ∈ U.erase s := by
      intro i j he hj
      rw [Finset.mem_erase] at hj ⊢
      refine ⟨?_, hcl i j he hj.2⟩
      rintro rfl
      exact hs j hj.2 he
    -- changing the weights of the edges into `s` does not change the covariances of the other variables in `U`
    have hagree : ∀ W x, ∀ i ∈ U.erase s, ∀ j ∈ U.erase s, semC E ω (setColumn W s x) i j = semC E ω W i j := by
      intro W x
      refine (sem_linear h hω _).agree (sem_linear h hω W) hcl' (fun i j hj => ?_)
      simp [semB, setColumn, Finset.ne_of_mem_erase hj]
    -- the residual covariance with `s` is a combination of those with its parents
    have hcomb : ∀ W, ∀ Z ⊆ U.erase s, ∀ a ∈ U.erase s, ∀ β, Regression (semC E ω W) Z a β →
        semC E ω W a s - ∑ i, β i * semC E ω W i s = ∑ j, semB E W j s * (semC E ω W a j - ∑ i, β i * semC E ω W i j) := by
      intro W Z hZ a ha β hβ
      have hnoise : ∀ i ∈ U.erase s, semC E ω W i s = ∑ j, semB E W j s * semC E ω W i j := by
        intro i hi
        rw [posDef_symm (hP W) i s, (sem_linear h hω W).noise_last hcl hs i (Finset.mem_of_mem_erase hi) (Finset.ne_of_mem_erase hi)]
        exact Finset.sum_congr rfl (fun j _ => by rw [posDef_symm (hP W) i j])
      have h1 : ∑ i, β i * semC E ω W i s = ∑ i, ∑ j, semB E W j s * (β i * semC E ω W i j) := by
        refine Finset.sum_congr rfl (fun i _ => ?_)
        by_cases hi : i ∈ Z
        · rw [hnoise i (hZ hi), Finset.mul_sum]
          exact Finset.sum_congr rfl (fun j _ => by ring)
        · simp [hβ.1 i hi]
      rw [h1, Finset.sum_comm, hnoise a ha, ← Finset.sum_sub_distrib]
      exact Finset.sum_congr rfl (fun j _ => by rw [← Finset.mul_sum, mul_sub])
    -- the last node is the second variable
    have hsecond : ∀ Z ⊆ U.erase s, ∀ a ∈ U.erase s, a ∉ Z → (∃ m, Reach (Inside E U) Z a s m) → ∃ W, ¬ ResidZero (semC E ω W) Z a s := by
      rintro Z hZ a ha haZ ⟨m, hm⟩
      have hsZ : s ∉ Z := fun hc => Finset.notMem_erase s U (hZ hc)
      obtain ⟨_, k, m', hk, hkU, hks, hkZ, hreach⟩ := (reach_last_not_mem hs (Finset.ne_of_mem_erase ha) hsZ hm).2 rfl
      have hkU' : k ∈ U.erase s := Finset.mem_erase.2 ⟨hks, hkU⟩
      have h1 := hW Z a k (ih _ hcard hcl' Z hZ a ha k hkU' haZ hkZ ⟨m', hreach⟩)
      refine ⟨setColumn W s (fun i => if i = k then 1 else 0), fun hr => h1 ?_⟩
      refine ResidZero.congr (U := U.erase s) hZ ha hkU' (hagree W (fun i => if i = k then 1 else 0)) ?_
      intro β hβ
      have h2 := hcomb _ Z hZ a ha β hβ
      rw [← hr β hβ, sub_self, Finset.sum_eq_single k] at h2
      · have hBk : semB E (setColumn W s (fun i => if i = k then 1 else 0)) k s = 1 := by simp [semB, setColumn, hk]
        rw [hBk, one_mul] at h2
        linarith
      · intro j _ hj
        simp [semB, setColumn, hj]
      · simp
    intro Z hZ a ha b hb haZ hbZ hr
    by_cases hab : a = b
    · subst hab
      exact ⟨W, hself W Z a haZ⟩
    by_cases hsZ : s ∈ Z
    · have has : a ≠ s := fun hc => haZ (hc ▸ hsZ)
      have hbs : b ≠ s := fun hc => hbZ (hc ▸ hsZ)
      have hZ' : Z.erase s ⊆ U.erase s := Finset.erase_subset_erase s hZ
      have haU : a ∈ U.erase s := Finset.mem_erase.2 ⟨has, ha⟩
      have hbU : b ∈ U.erase s := Finset.mem_erase.2 ⟨hbs, hb⟩
      have haZ' : a ∉ Z.erase s := fun hc => haZ (Finset.mem_of_mem_erase hc)
      have hbZ' : b ∉ Z.erase s := fun hc => hbZ (Finset.mem_of_mem_erase hc)
      -- weights for which `a` and `b` are correlated without `s`: remove the edges into `s`
      have hfirst : (∃ W, ¬ ResidZero (semC E ω W) (Z.erase s) a b) → ∃ W, ¬ ResidZero (semC E ω W) Z a b := by
        rintro ⟨W1, hW1⟩
        refine ⟨setColumn W1 s 0, fun hr => hW1 ?_⟩
        refine ResidZero.congr (U := U.erase s) hZ' haU hbU (hagree W1 0) ?_
        rw [← Finset.insert_erase hsZ] at hr
        obtain ⟨α, hα⟩ := exists_regression (hP (setColumn W1 s 0)) (Z.erase s) a
        obtain ⟨σ, hσ⟩ := exists_regression (hP (setColumn W1 s 0)) (Z.erase s) s
        rw [resid_insert_iff (hP _) (Finset.notMem_erase s Z) hα hσ] at hr
        have h0 : ∀ j, semB E (setColumn W1 s 0) j s = 0 := fun j => by simp [semB, setColumn]
        have h2 : semC E ω (setColumn W1 s 0) a s - ∑ i, α i * semC E ω (setColumn W1 s 0) i s = 0 := by
          rw [hcomb _ _ hZ' a haU α hα]
          exact Finset.sum_eq_zero (fun j _ => by rw [h0, zero_mul])
        rw [h2, zero_mul, mul_eq_zero] at hr
        have h1 := hr.resolve_right (ne_of_gt (resid_self_pos (hP _) (Finset.notMem_erase s Z) hσ))
        intro β hβ
        rw [regression_unique (hP _) hα hβ]
        linarith
      by_cases h1 : ∃ m, Reach (Inside E (U.erase s)) (Z.erase s) a b m
      · exact hfirst (ih _ hcard hcl' _ hZ' a haU b hbU haZ' hbZ' h1)
      · -- every walk passes `s`
        have hra : ∃ m, Reach (Inside E U) (Z.erase s) a s m := by
          by_contra hc
          obtain ⟨m, hm⟩ := hr
          rw [← Finset.insert_erase hsZ] at hm
          exact h1 ⟨m, (reach_insert_avoid hc hm).2⟩
        have hrb : ∃ m, Reach (Inside E U) (Z.erase s) b s m := by
          by_contra hc
          obtain ⟨m, hm⟩ := Reach.symm hbZ hr
          rw [← Finset.insert_erase hsZ] at hm
          exact h1 (Reach.symm haZ' ⟨m, (reach_insert_avoid hc hm).2⟩)
        have ha1 := hW _ _ _ (hsecond _ hZ' a haU haZ' hra)
        have hb1 := hW _ _ _ (hsecond _ hZ' b hbU hbZ' hrb)
        by_cases hab0 : ResidZero (semC E ω W) (Z.erase s) a b
        · refine ⟨W, fun hr => ?_⟩
          rw [← Finset.insert_erase hsZ] at hr
          obtain ⟨α, hα⟩ := exists_regression (hP W) (Z.erase s) a
          obtain ⟨σ, hσ⟩ := exists_regression (hP W) (Z.erase s) s
          rw [resid_insert_iff (hP _) (Finset.notMem_erase s Z) hα hσ, ← hab0 α hα, sub_self, zero_mul, eq_comm, mul_eq_zero] at hr
          rcases hr with hr | hr
          · refine ha1 (fun β hβ => ?_)
            rw [regression_unique (hP _) hα hβ]
            linarith
          · refine hb1 (ResidZero.symm (hP W) (fun β hβ => ?_))
            rw [regression_unique (hP _) hσ hβ]
            linarith
        · exact hfirst ⟨W, hab0⟩
    · have hZ' : Z ⊆ U.erase s := fun z hz => Finset.mem_erase.2 ⟨fun hc => hsZ (hc ▸ hz), hZ hz⟩
      by_cases hbs : b = s
      · subst hbs
        exact hsecond Z hZ' a (Finset.mem_erase.2 ⟨hab, ha⟩) haZ hr
      · by_cases has : a = s
        · subst has
          obtain ⟨W1, hW1⟩ := hsecond Z hZ' b (Finset.mem_erase.2 ⟨hbs, hb⟩) hbZ (Reach.symm hbZ hr)
          exact ⟨W1, fun hc => hW1 (hc.symm (hP W1))⟩
        · obtain ⟨m, hm⟩ := hr
          exact ih _ hcard hcl' Z hZ' a (Finset.mem_erase.2 ⟨has, ha⟩) b (Finset.mem_erase.2 ⟨hbs, hb⟩) haZ hbZ
            ⟨m, (reach_last_not_mem hs has hsZ hm).1 hbs⟩

/-- For almost all weights, variables are uncorrelated given `Z` iff they are d-separated by `Z`. -/
theorem ae_faithful {E : V → V → Prop} (h : ∀ i, ¬ Relation.TransGen E i i) {ω : V → ℝ} (hω : ∀ i, 0 < ω i) :
    ∀ᵐ W : V × V → ℝ, ∀ (Z : Finset V) (a b : V), a ∉ Z → b ∉ Z → (UncorrelatedGiven (semC E ω W) Z a b ↔ DSeparated E Z a b) := by
  filter_upwards [ae_generic h hω] with W hW Z a b ha hb
  refine ⟨fun hu hc => ?_, (sem_linear h hω W).global_markov ha hb⟩
  obtain ⟨m, hm⟩ := (dconnected_iff h ha).1 hc
  refine hW Z a b (exists_resid_ne h hω _ Finset.univ rfl (fun _ _ _ _ => Finset.mem_univ _) Z (Finset.subset_univ _) a (Finset.mem_univ _) b
    (Finset.mem_univ _) ha hb ⟨m, hm.congr (fun _ _ he => ⟨he, Finset.mem_univ _, Finset.mem_univ _⟩)⟩) ?_
  obtain ⟨β, h1, h2, h3⟩ := hu
  intro β' hβ'
  rw [h2 β' hβ']
  exact h3

end Verif
