import Verif.Proof.Faithful
import Verif.Proof.DSep
import Verif.Proof.Covered
import Verif.Spec.Sparsest

/-!
# The sparsest graphs that entail the covariances of a generic model

For almost all weights the graphs with fewest edges that entail the covariances of a model are the graphs of its interventional equivalence class.
-/

namespace Verif

open Spec Matrix MeasureTheory

variable {V : Type} [Fintype V] [DecidableEq V]

/-! ### Regression coefficients as quotients of polynomials -/

/-- The coefficient of `y` in the regression of `a` on `Z`, times the determinant of the covariance of `Z`. -/
def coefDet {R : Type} [CommRing R] (C : Matrix V V R) (Z : Finset V) (a : V) (y : {z // z ∈ Z}) : R :=
  ∑ z : {z // z ∈ Z}, C a z.1 * (C.submatrix (Subtype.val : {z // z ∈ Z} → V) Subtype.val).adjugate z y

theorem coefDet_eq {C : Matrix V V ℝ} {Z : Finset V} {a : V} {β : V → ℝ} (hβ : Regression C Z a β) (y : {z // z ∈ Z}) :
    coefDet C Z a y = (C.submatrix (Subtype.val : {z // z ∈ Z} → V) Subtype.val).det * β y.1 := by
  unfold coefDet
  set M := C.submatrix (Subtype.val : {z // z ∈ Z} → V) Subtype.val with hMd
  have hsum : ∀ j, ∑ i, β i * C i j = ∑ w : {z // z ∈ Z}, β w.1 * C w.1 j := by
    intro j
    rw [← Finset.sum_subset (Finset.subset_univ Z) (fun i _ hi => by rw [hβ.1 i hi, zero_mul]), ← Finset.sum_coe_sort Z]
  have hβM : (fun w : {z // z ∈ Z} => β w.1) ᵥ* M = fun z => C a z.1 := by
    funext z
    rw [hβ.2 z.1 z.2, hsum]
    rfl
  have h1 : (fun z : {z // z ∈ Z} => C a z.1) ᵥ* M.adjugate = M.det • (fun w : {z // z ∈ Z} => β w.1) := by
    rw [← hβM, Matrix.vecMul_vecMul, Matrix.mul_adjugate, Matrix.vecMul_smul, Matrix.vecMul_one]
  exact congrFun h1 y

omit [Fintype V] in
theorem coefDet_map {R S : Type} [CommRing R] [CommRing S] (φ : R →+* S) (C : Matrix V V R) (Z : Finset V) (a : V) (y : {z // z ∈ Z}) :
    coefDet (C.map φ) Z a y = φ (coefDet C Z a y) := by
  unfold coefDet
  have h1 : φ.mapMatrix (C.submatrix (Subtype.val : {z // z ∈ Z} → V) Subtype.val) =
      (C.map φ).submatrix (Subtype.val : {z // z ∈ Z} → V) Subtype.val := rfl
  rw [map_sum]
  refine Finset.sum_congr rfl (fun z _ => ?_)
  rw [map_mul, ← h1, ← RingHom.map_adjugate]
  rfl

omit [Fintype V] in
theorem det_sub_map {R S : Type} [CommRing R] [CommRing S] (φ : R →+* S) (C : Matrix V V R) (Z : Finset V) :
    ((C.map φ).submatrix (Subtype.val : {z // z ∈ Z} → V) Subtype.val).det =
      φ (C.submatrix (Subtype.val : {z // z ∈ Z} → V) Subtype.val).det := by
  rw [RingHom.map_det]
  rfl

/-- Almost all weights give different regression coefficients for two vectors of noise variances, wherever some weights do. -/
theorem ae_generic_coef {E : V → V → Prop} (h : ∀ i, ¬ Relation.TransGen E i i) {ω ω' : V → ℝ} (hω : ∀ i, 0 < ω i) (hω' : ∀ i, 0 < ω' i)
    (Z : Finset V) (a y : V) (hy : y ∈ Z)
    (hex : ∃ W β β', Regression (semC E ω W) Z a β ∧ Regression (semC E ω' W) Z a β' ∧ β y ≠ β' y) :
    ∀ᵐ W : V × V → ℝ, ∀ β β', Regression (semC E ω W) Z a β → Regression (semC E ω' W) Z a β' → β y ≠ β' y := by
  have hP := fun W => (sem_linear h hω W).posDef
  have hP' := fun W => (sem_linear h hω' W).posDef
  have hd : ∀ {C : Matrix V V ℝ}, C.PosDef → (C.submatrix (Subtype.val : {z // z ∈ Z} → V) Subtype.val).det ≠ 0 := fun hC =>
    ne_of_gt (hC.submatrix Subtype.val_injective).det_pos
  let q := coefDet (polyC E ω) Z a ⟨y, hy⟩ * ((polyC E ω').submatrix (Subtype.val : {z // z ∈ Z} → V) Subtype.val).det -
    coefDet (polyC E ω') Z a ⟨y, hy⟩ * ((polyC E ω).submatrix (Subtype.val : {z // z ∈ Z} → V) Subtype.val).det
  have hq : ∀ W β β', Regression (semC E ω W) Z a β → Regression (semC E ω' W) Z a β' →
      (MvPolynomial.eval W q = 0 ↔ β y = β' y) := by
    intro W β β' hβ hβ'
    have e1 := coefDet_eq hβ ⟨y, hy⟩
    have e2 := coefDet_eq hβ' ⟨y, hy⟩
    have d1 := hd (hP W)
    have d2 := hd (hP' W)
    rw [← polyC_eval h] at e1 e2 d1 d2
    rw [coefDet_map, det_sub_map] at e1 e2
    rw [det_sub_map] at d1 d2
    simp only [q, map_sub, map_mul, e1, e2]
    constructor
    · intro h0
      have : (β y - β' y) * (MvPolynomial.eval W ((polyC E ω).submatrix (Subtype.val : {z // z ∈ Z} → V) Subtype.val).det *
          MvPolynomial.eval W ((polyC E ω').submatrix (Subtype.val : {z // z ∈ Z} → V) Subtype.val).det) = 0 := by
        rw [← h0]
        ring
      rcases mul_eq_zero.1 this with h1 | h1
      · exact sub_eq_zero.1 h1
      · exact absurd h1 (mul_ne_zero d1 d2)
    · intro h0
      rw [h0]
      ring
  obtain ⟨W', β, β', hβ, hβ', hne⟩ := hex
  have hq0 : q ≠ 0 := by
    intro hc
    refine hne ((hq W' β β' hβ hβ').1 ?_)
    rw [hc, map_zero]
  have hae : ∀ᵐ W : V × V → ℝ, W ∉ {W | MvPolynomial.eval W q = 0} := measure_eq_zero_iff_ae_notMem.1 (poly_null _ hq0)
  filter_upwards [hae] with W hW β β' hβ hβ' hc
  exact hW ((hq W β β' hβ hβ').2 hc)

/-- With a single non-zero weight, that of `x → y`, the coefficient of `y` in the regression of `x` on variables that include `y`. -/
theorem single_edge_coef {E : V → V → Prop} (h : ∀ i, ¬ Relation.TransGen E i i) {ω : V → ℝ} (hω : ∀ i, 0 < ω i) {x y : V} (hxy : E x y)
    {Z : Finset V} (hx : x ∉ Z) (hy : y ∈ Z) {β : V → ℝ} (hβ : Regression (semC E ω (fun q => if q = (x, y) then 1 else 0)) Z x β) :
    β y = ω x / (ω x + ω y) := by
  have hS := sem_linear h hω (fun q => if q = (x, y) then 1 else 0)
  set C := semC E ω (fun q => if q = (x, y) then (1 : ℝ) else 0) with hC
  have hne : x ≠ y := fun hc => hx (hc ▸ hy)
  have hsym := posDef_symm hS.posDef
  have hB : ∀ i j, semB E (fun q => if q = (x, y) then (1 : ℝ) else 0) i j = if i = x ∧ j = y then 1 else 0 := by
    intro i j
    unfold semB
    rw [Matrix.of_apply]
    by_cases hc : i = x ∧ j = y
    · obtain ⟨rfl, rfl⟩ := hc
      simp [hxy]
    · have : ¬ ((i, j) = (x, y)) := fun h => hc (by simpa using h)
      simp [hc]
  have hcov := hS.noise_cov
  simp only [hB] at hcov
  have hne' : ∀ s k, s ≠ y → k ≠ y → C s k = if s = k then ω s else 0 := by
    intro s k hs hk
    have := hcov s k
    simpa [hs, hk] using this
  have h1 : ∀ s, s ≠ y → C s y = C s x := by
    intro s hs
    have := hcov s y
    simp [hs] at this
    linarith
  have hyy : C y y = ω x + ω y := by
    have e1 := hcov y y
    have e2 := hcov y x
    simp [hne, Ne.symm hne] at e1 e2
    have e3 := h1 x hne
    have e4 := hne' x x hne hne
    simp at e4
    linarith
  have hpos : ω x + ω y ≠ 0 := ne_of_gt (add_pos (hω x) (hω y))
  have hreg : Regression C Z x (fun i => if i = y then ω x / (ω x + ω y) else 0) := by
    refine ⟨fun i hi => if_neg (fun hc : i = y => hi (hc ▸ hy)), fun z hz => ?_⟩
    simp only [ite_mul, zero_mul, Finset.sum_ite_eq', Finset.mem_univ, if_true]
    have hzx : x ≠ z := fun hc => hx (hc ▸ hz)
    by_cases hzy : z = y
    · subst hzy
      rw [hyy, h1 x hne, hne' x x hne hne, if_pos rfl]
      field_simp
    · rw [hne' x z hne hzy, if_neg hzx, hsym y z, h1 z hzy, hne' z x hzy hne, if_neg (Ne.symm hzx), mul_zero]
  rw [regression_unique hS.posDef hreg hβ]
  simp

/-- For almost all weights the coefficient of `y` in the regression of `x` on variables that include `y` changes between environments, for
every edge `x → y` whose noise variances do not keep their ratio. -/
theorem ae_coef_changes {E : V → V → Prop} (h : ∀ i, ¬ Relation.TransGen E i i) {ω ω' : V → ℝ} (hω : ∀ i, 0 < ω i) (hω' : ∀ i, 0 < ω' i) :
    ∀ᵐ W : V × V → ℝ, ∀ (Z : Finset V) (x y : V), E x y → x ∉ Z → y ∈ Z → ω x * ω' y ≠ ω' x * ω y →
      ∀ β β', Regression (semC E ω W) Z x β → Regression (semC E ω' W) Z x β' → β y ≠ β' y := by
  rw [ae_all_iff]
  intro Z
  rw [ae_all_iff]
  intro x
  rw [ae_all_iff]
  intro y
  by_cases hc : E x y ∧ x ∉ Z ∧ y ∈ Z ∧ ω x * ω' y ≠ ω' x * ω y
  · obtain ⟨h1, h2, h3, h4⟩ := hc
    obtain ⟨β, hβ⟩ := exists_regression (sem_linear h hω (fun q => if q = (x, y) then 1 else 0)).posDef Z x
    obtain ⟨β', hβ'⟩ := exists_regression (sem_linear h hω' (fun q => if q = (x, y) then 1 else 0)).posDef Z x
    have hae := ae_generic_coef h hω hω' Z x y h3 ⟨_, β, β', hβ, hβ', by
      rw [single_edge_coef h hω h1 h2 h3 hβ, single_edge_coef h hω' h1 h2 h3 hβ']
      intro he
      rw [div_eq_div_iff (ne_of_gt (add_pos (hω x) (hω y))) (ne_of_gt (add_pos (hω' x) (hω' y)))] at he
      exact h4 (by linarith)⟩
    filter_upwards [hae] with W hW _ _ _ _
    exact hW
  · exact Filter.Eventually.of_forall (fun W h1 h2 h3 h4 => absurd ⟨h1, h2, h3, h4⟩ hc)

/-! ### Graphs with fewer separations -/

variable {p e : Nat}

/-- If all d-separations of `H` hold in `G`, then `H` has all adjacencies of `G`; if it has no more, the graphs are Markov equivalent. -/
theorem adjacent_of_imap {G H : Adj p} (hG : Acyclic G) (hH : Acyclic H)
    (h : ∀ Z a b, a ∉ Z → b ∉ Z → DSeparated (Edge H) Z a b → DSeparated (Edge G) Z a b) (a b : Fin p) (hadj : Adjacent G a b) :
    Adjacent H a b := by
  have hab : a ≠ b := by
    rintro rfl
    rcases hadj with h | h <;> exact hG a (Relation.TransGen.single h)
  by_contra hc
  obtain ⟨Z, h1, h2, h3⟩ := exists_dseparated hH hab hc
  exact h Z a b h1 h2 h3 (dconnected_of_adjacent hab hadj)

theorem markovEquiv_of_imap {G H : Adj p} (hG : Acyclic G) (hH : Acyclic H)
    (h : ∀ Z a b, a ∉ Z → b ∉ Z → DSeparated (Edge H) Z a b → DSeparated (Edge G) Z a b) (hskel : SameSkeleton G H) : MarkovEquiv G H := by
  refine ⟨hskel, fun a c b => ?_⟩
  rw [vstructure_iff hG, vstructure_iff hH]
  constructor
  · rintro ⟨h1, h2, h3, h4⟩
    have h4' : ¬ Adjacent H a b := fun hc => h4 ((hskel a b).2 hc)
    obtain ⟨Z, h5, h6, h7⟩ := exists_dseparated hH h3 h4'
    have h8 := (mem_separator_iff hG h3 (Or.inl h1) (Or.inl h2) (h Z a b h5 h6 h7)).2 ⟨h1, h2⟩
    have h9 := (mem_separator_iff hH h3 ((hskel a c).1 (Or.inl h1)) ((hskel b c).1 (Or.inl h2)) h7).1 h8
    exact ⟨h9.1, h9.2, h3, h4'⟩
  · rintro ⟨h1, h2, h3, h4⟩
    have h4' : ¬ Adjacent G a b := fun hc => h4 ((hskel a b).1 hc)
    obtain ⟨Z, h5, h6, h7⟩ := exists_dseparated hH h3 h4
    have h8 := (mem_separator_iff hH h3 (Or.inl h1) (Or.inl h2) h7).2 ⟨h1, h2⟩
    have h9 := (mem_separator_iff hG h3 ((hskel a c).2 (Or.inl h1)) ((hskel b c).2 (Or.inl h2)) (h Z a b h5 h6 h7)).1 h8
    exact ⟨h9.1, h9.2, h3, h4'⟩

open Classical in
theorem two_mul_edgeCount {G : Adj p} (hG : Acyclic G) :
    (Finset.univ.filter (fun q : Fin p × Fin p => Adjacent G q.1 q.2)).card = 2 * edgeCount G := by
  have h1 : Finset.univ.filter (fun q : Fin p × Fin p => Adjacent G q.1 q.2) =
      Finset.univ.filter (fun q : Fin p × Fin p => Edge G q.1 q.2) ∪ Finset.univ.filter (fun q : Fin p × Fin p => Edge G q.2 q.1) := by
    rw [← Finset.filter_or]
    rfl
  have h2 : Disjoint (Finset.univ.filter (fun q : Fin p × Fin p => Edge G q.1 q.2))
      (Finset.univ.filter (fun q : Fin p × Fin p => Edge G q.2 q.1)) := by
    rw [Finset.disjoint_filter]
    intro q _ h3 h4
    exact hG q.1 (Relation.TransGen.tail (Relation.TransGen.single h3) h4)
  have h3 : (Finset.univ.filter (fun q : Fin p × Fin p => Edge G q.2 q.1)).card = (Finset.univ.filter (fun q : Fin p × Fin p => Edge G q.1 q.2)).card := by
    refine Finset.card_bij (fun q _ => (q.2, q.1)) ?_ ?_ ?_
    · intro q hq
      simpa using hq
    · intro q _ q' _ hqq
      rw [Prod.ext_iff] at hqq ⊢
      exact ⟨hqq.2, hqq.1⟩
    · intro q hq
      exact ⟨(q.2, q.1), by simpa using hq, rfl⟩
  rw [h1, Finset.card_union_of_disjoint h2, h3]
  unfold edgeCount
  omega

open Classical in
theorem sameSkeleton_of_count {G H : Adj p} (hG : Acyclic G) (hH : Acyclic H) (h : ∀ a b, Adjacent G a b → Adjacent H a b)
    (hc : edgeCount H ≤ edgeCount G) : SameSkeleton G H := by
  have hsub : Finset.univ.filter (fun q : Fin p × Fin p => Adjacent G q.1 q.2) ⊆ Finset.univ.filter (fun q : Fin p × Fin p => Adjacent H q.1 q.2) := by
    intro q hq
    simp only [Finset.mem_filter, Finset.mem_univ, true_and] at hq ⊢
    exact h _ _ hq
  have heq := Finset.eq_of_subset_of_card_le hsub (by rw [two_mul_edgeCount hG, two_mul_edgeCount hH]; omega)
  intro a b
  have := Finset.ext_iff.1 heq (a, b)
  simpa using this

theorem edgeCount_of_skeleton {G H : Adj p} (hG : Acyclic G) (hH : Acyclic H) (h : SameSkeleton G H) : edgeCount G = edgeCount H := by
  classical
  have h1 := two_mul_edgeCount hG
  have h2 := two_mul_edgeCount hH
  have h3 : Finset.univ.filter (fun q : Fin p × Fin p => Adjacent G q.1 q.2) = Finset.univ.filter (fun q : Fin p × Fin p => Adjacent H q.1 q.2) := by
    ext q
    simp [h q.1 q.2]
  rw [h3] at h1
  omega

/-! ### Generic weights -/

theorem fits_linear {H : Adj p} (hH : Acyclic H) {B : Matrix (Fin p) (Fin p) ℝ} (hB : Respects H B) {w : Fin p → ℝ} (hw : ∀ i, 0 < w i)
    {C : Matrix (Fin p) (Fin p) ℝ} (h : Entails B (Matrix.diagonal w) C) : LinearSEM (Edge H) B C w :=
  ⟨hH, fun i j h h0 => h (hB i j h0), h, hw⟩

/-- The regression of `x` on its parents in a graph that entails the covariances has the same coefficients in all environments. -/
theorem regression_parents {H : Adj p} {B : Matrix (Fin p) (Fin p) ℝ} {w : Fin p → ℝ} {C : Matrix (Fin p) (Fin p) ℝ}
    (hS : LinearSEM (Edge H) B C w) (x : Fin p) {Z : Finset (Fin p)} (hZ : ∀ z, z ∈ Z ↔ Edge H z x) : Regression C Z x (fun j => B j x) := by
  classical
  refine ⟨fun j hj => ?_, fun z hz => ?_⟩
  · by_contra hc
    exact hj ((hZ j).2 (hS.respects j x hc))
  · refine hS.noise_last (U := Finset.univ.filter (fun b => ¬ Relation.TransGen (Edge H) x b)) ?_ ?_ z ?_ ?_
    · intro a b hab hb
      rw [Finset.mem_filter] at hb ⊢
      exact ⟨Finset.mem_univ _, fun hc => hb.2 (hc.tail hab)⟩
    · intro j hj he
      rw [Finset.mem_filter] at hj
      exact hj.2 (Relation.TransGen.single he)
    · rw [Finset.mem_filter]
      exact ⟨Finset.mem_univ _, fun hc => hS.acyclic x (hc.tail ((hZ z).1 hz))⟩
    · rintro rfl
      exact hS.acyclic z (Relation.TransGen.single ((hZ z).1 hz))

/-- What holds for almost all weights: partial correlations vanish at d-separations only, and coefficients of reversed edges change. -/
def Generic (G : Adj p) (omegas : Fin e → Fin p → ℝ) (W : Fin p × Fin p → ℝ) : Prop :=
  (∀ k (Z : Finset (Fin p)) a b, a ∉ Z → b ∉ Z → (UncorrelatedGiven (semC (Edge G) (omegas k) W) Z a b ↔ DSeparated (Edge G) Z a b)) ∧
    ∀ k k' (Z : Finset (Fin p)) (x y : Fin p), Edge G x y → x ∉ Z → y ∈ Z → omegas k x * omegas k' y ≠ omegas k' x * omegas k y →
      ∀ β β', Regression (semC (Edge G) (omegas k) W) Z x β → Regression (semC (Edge G) (omegas k') W) Z x β' → β y ≠ β' y

theorem ae_Generic {G : Adj p} (hG : Acyclic G) {omegas : Fin e → Fin p → ℝ} (ho : ∀ k i, 0 < omegas k i) :
    ∀ᵐ W : Fin p × Fin p → ℝ, Generic G omegas W := by
  refine Filter.Eventually.and ?_ ?_
  · rw [ae_all_iff]
    exact fun k => ae_faithful hG (ho k)
  · rw [ae_all_iff]
    intro k
    rw [ae_all_iff]
    exact fun k' => ae_coef_changes hG (ho k) (ho k')

/-- A graph that entails the covariances in an environment has at least the edges of the true graph; with no more it is Markov equivalent. -/
theorem Generic.imap {G H : Adj p} (hH : Acyclic H) {omegas : Fin e → Fin p → ℝ} {W : Fin p × Fin p → ℝ}
    (hW : Generic G omegas W) (k : Fin e) {B : Matrix (Fin p) (Fin p) ℝ} (hB : Respects H B) {w : Fin p → ℝ} (hw : ∀ i, 0 < w i)
    (hE : Entails B (Matrix.diagonal w) (semC (Edge G) (omegas k) W)) (Z : Finset (Fin p)) (a b : Fin p) (ha : a ∉ Z) (hb : b ∉ Z)
    (h : DSeparated (Edge H) Z a b) : DSeparated (Edge G) Z a b :=
  (hW.1 k Z a b ha hb).1 ((fits_linear hH hB hw hE).global_markov ha hb h)

theorem Generic.sameParents {G H : Adj p} (hH : Acyclic H) {omegas : Fin e → Fin p → ℝ} {W : Fin p × Fin p → ℝ}
    (hW : Generic G omegas W) {I : Finset (Fin p)}
    (hI : ∀ x y, Edge G x y → (x ∈ I ∨ y ∈ I) → ∃ k k', omegas k x * omegas k' y ≠ omegas k' x * omegas k y) (hsk : SameSkeleton G H)
    (h : FitsAll H (fun k => semC (Edge G) (omegas k) W)) : SameParentsAt I G H := by
  classical
  obtain ⟨B, w, hB', hw, hE⟩ := h
  have hB : Respects H B := fun i j h0 => hB' i j (fun hc => hc h0)
  have key : ∀ x y, Edge G x y → (x ∈ I ∨ y ∈ I) → Edge H x y := by
    intro x y hxy hor
    by_contra hc
    have hyx : Edge H y x := ((hsk x y).1 (Or.inl hxy)).resolve_left hc
    obtain ⟨k, k', hne⟩ := hI x y hxy hor
    have hZ : ∀ z, z ∈ Finset.univ.filter (fun z => Edge H z x) ↔ Edge H z x := by simp
    refine hW.2 k k' (Finset.univ.filter (fun z => Edge H z x)) x y hxy ?_ (by simpa using hyx) hne _ _
      (regression_parents (fits_linear hH hB (hw k) (hE k)) x hZ) (regression_parents (fits_linear hH hB (hw k') (hE k')) x hZ) rfl
    rw [hZ]
    exact fun hc => hH x (Relation.TransGen.single hc)
  intro i hi j
  constructor
  · exact fun hji => key j i hji (Or.inr hi)
  · intro hji
    rcases (hsk j i).2 (Or.inl hji) with h1 | h1
    · exact h1
    · exact absurd (Relation.TransGen.tail (Relation.TransGen.single hji) (key i j h1 (Or.inl hi))) (hH j)

end Verif
