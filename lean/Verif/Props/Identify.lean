import Verif.Props.Proper
import Verif.Props.Gradients

/-!
# C101: without latents, two graphs entail the same covariances exactly when they are in the same interventional equivalence class
-/

namespace Verif

open Spec Matrix

variable {p l e : Nat}

/-- In the model `X = Bᵀ X + ε` with uncorrelated noise over a DAG, the covariance of `j` with a variable that is neither `j` nor a
descendant of `j` passes through the parents of `j`. -/
theorem entails_row {H : Adj p} {B C : Matrix (Fin p) (Fin p) ℝ} {w : Fin p → ℝ} (hac : Acyclic H) (hB : Respects H B)
    (hC : Entails B (Matrix.diagonal w) C) (j a : Fin p) (ha : ¬ Relation.ReflTransGen (Edge H) j a) :
    C j a = ∑ d, B d j * C d a := by
  obtain ⟨r, hr⟩ := hac.exists_rank
  set M := (1 - Bᵀ) * C with hM
  have h1 : M * (1 - B) = Matrix.diagonal w := by
    have : (1 - Bᵀ)ᵀ = 1 - B := by simp
    rw [← this]; exact hC
  have h2 : ∀ a, M j a = Matrix.diagonal w j a + ∑ d, M j d * B d a := by
    intro a
    have := congrFun (congrFun h1 j) a
    rw [Matrix.mul_sub, Matrix.mul_one, Matrix.sub_apply, Matrix.mul_apply] at this
    linarith
  have h3 : ∀ n a, r a = n → ¬ Relation.ReflTransGen (Edge H) j a → M j a = 0 := by
    intro n
    induction n using Nat.strong_induction_on with
    | _ n ih =>
      intro a hn hna
      have hne : j ≠ a := fun hc => hna (hc ▸ Relation.ReflTransGen.refl)
      rw [h2 a, Matrix.diagonal_apply_ne _ hne, zero_add]
      refine Finset.sum_eq_zero fun d _ => ?_
      by_cases hd : H d a = 0
      · rw [hB d a hd, mul_zero]
      · rw [ih (r d) (hn ▸ hr d a hd) d rfl (fun hc => hna (hc.tail hd)), zero_mul]
  have h4 := h3 _ a rfl ha
  rw [hM, Matrix.sub_mul, Matrix.one_mul, Matrix.sub_apply, Matrix.mul_apply] at h4
  simpa [sub_eq_zero] using h4

theorem entails_diag {H : Adj p} {B C : Matrix (Fin p) (Fin p) ℝ} {w : Fin p → ℝ} (hac : Acyclic H) (hB : Respects H B)
    (hC : Entails B (Matrix.diagonal w) C) (j : Fin p) : C j j = w j + ∑ d, B d j * C d j := by
  have h0 := congrFun (congrFun hC j) j
  have h1 : (1 - Bᵀ)ᵀ = 1 - B := by simp
  rw [h1, Matrix.mul_sub, Matrix.mul_one, Matrix.sub_apply, Matrix.diagonal_apply_eq, Matrix.mul_apply (N := B)] at h0
  have h2 : ∀ d, ((1 - Bᵀ) * C) j d = C j d - ∑ c, B c j * C c d := by
    intro d
    rw [Matrix.sub_mul, Matrix.one_mul, Matrix.sub_apply, Matrix.mul_apply]
    rfl
  rw [h2] at h0
  have h3 : ∑ d, ((1 - Bᵀ) * C) j d * B d j = 0 := by
    refine Finset.sum_eq_zero fun d _ => ?_
    by_cases hd : H d j = 0
    · rw [hB d j hd, mul_zero]
    · rw [h2, ← entails_row hac hB hC j d, sub_self, zero_mul]
      intro hc
      exact hac j (Relation.TransGen.tail' hc hd)
  rw [h3] at h0
  linarith

theorem entails_symm {B V C : Matrix (Fin p) (Fin p) ℝ} (hdet : (1 - Bᵀ).det = 1) (hV : Vᵀ = V) (hC : Entails B V C) : Cᵀ = C := by
  have h := entails_eq hdet hC
  rw [h]
  simp only [Matrix.transpose_mul, Matrix.transpose_transpose, hV, Matrix.mul_assoc]

theorem noiseCov_zero (gamma : Matrix (Fin 0) (Fin p) ℝ) (psi : Fin 0 → ℝ) (w : Fin p → ℝ) :
    noiseCov gamma psi w = Matrix.diagonal w := by
  ext i j
  simp [noiseCov, Matrix.diagonal_apply]

/-- The weights that make `j` the sum of the variables in `P` and noise, and leave all other variables without causes. -/
def starB (P : Finset (Fin p)) (j : Fin p) : Matrix (Fin p) (Fin p) ℝ := Matrix.of fun d c => if c = j ∧ d ∈ P then 1 else 0

def starG (P : Finset (Fin p)) (j : Fin p) : Adj p := fun d c => if c = j ∧ d ∈ P then 1 else 0

theorem starG_acyclic {P : Finset (Fin p)} {j : Fin p} (hj : j ∉ P) : Acyclic (starG P j) := by
  refine acyclic_of_rank (fun i => if i = j then 1 else 0) fun a b hab => ?_
  unfold Edge starG at hab
  have : b = j ∧ a ∈ P := by by_contra hc; simp [hc] at hab
  have hne : a ≠ j := fun hc => hj (hc ▸ this.2)
  simp [this.1, hne]

theorem starG_respects (P : Finset (Fin p)) (j : Fin p) : Respects (starG P j) (starB P j) := by
  intro a b hab
  unfold starG at hab
  have : ¬ (b = j ∧ a ∈ P) := by intro hc; simp [hc] at hab
  simp [starB, this]

theorem starG_reach {P : Finset (Fin p)} {j : Fin p} (hj : j ∉ P) {a b : Fin p} (h : Relation.ReflTransGen (Edge (starG P j)) a b) :
    a = b ∨ (b = j ∧ a ∈ P) := by
  induction h with
  | refl => exact Or.inl rfl
  | @tail b c _ h1 ih =>
    unfold Edge starG at h1
    have h2 : c = j ∧ b ∈ P := by by_contra hc; simp [hc] at h1
    rcases ih with rfl | ⟨rfl, -⟩
    · exact Or.inr h2
    · exact absurd h2.2 hj

/-- The covariances entailed by the weights `starB`. -/
theorem star_cov {P : Finset (Fin p)} {j : Fin p} (hj : j ∉ P) {w : Fin p → ℝ} {C : Matrix (Fin p) (Fin p) ℝ}
    (hC : Entails (starB P j) (Matrix.diagonal w) C) :
    (∀ a b, C a b = C b a) ∧ (∀ a, a ≠ j → C a a = w a) ∧ (∀ a b, a ≠ j → b ≠ j → a ≠ b → C a b = 0) ∧
      (∀ a, a ≠ j → C j a = if a ∈ P then w a else 0) ∧ C j j = w j + ∑ d ∈ P, w d := by
  have hac := starG_acyclic hj
  have hB := starG_respects P j
  have hs : Cᵀ = C := entails_symm (det_one_sub_transpose hac hB) (by simp) hC
  have hs' : ∀ a b, C a b = C b a := fun a b => congrFun (congrFun hs b) a
  have hz : ∀ a, a ≠ j → ∀ d, starB P j d a = 0 := by intro a ha d; simp [starB, ha]
  have h1 : ∀ a, a ≠ j → C a a = w a := by
    intro a ha
    rw [entails_diag hac hB hC a]
    simp [hz a ha]
  have h2 : ∀ a b, a ≠ j → b ≠ j → a ≠ b → C a b = 0 := by
    intro a b ha hb hab
    rw [entails_row hac hB hC a b (fun hc => by rcases starG_reach hj hc with h | h; exacts [hab h, hb h.1])]
    simp [hz a ha]
  have h3 : ∀ a, a ≠ j → C j a = if a ∈ P then w a else 0 := by
    intro a ha
    rw [entails_row hac hB hC j a (fun hc => by rcases starG_reach hj hc with h | h; exacts [ha h.symm, ha h.1])]
    have : ∀ d, starB P j d j * C d a = if d = a then (if a ∈ P then w a else 0) else 0 := by
      intro d
      by_cases hd : d ∈ P
      · have hdj : d ≠ j := fun hc => hj (hc ▸ hd)
        by_cases hda : d = a
        · subst hda; simp [starB, hd, h1 d hdj]
        · simp [hda, h2 d a hdj ha hda]
      · by_cases hda : d = a
        · subst hda; simp [starB, hd]
        · simp [starB, hd, hda]
    rw [Finset.sum_congr rfl fun d _ => this d, Finset.sum_ite_eq' Finset.univ a]
    simp
  refine ⟨hs', h1, h2, h3, ?_⟩
  rw [entails_diag hac hB hC j]
  congr 1
  rw [← Finset.sum_subset (Finset.subset_univ P)]
  · refine Finset.sum_congr rfl fun d hd => ?_
    have hdj : d ≠ j := fun hc => hj (hc ▸ hd)
    rw [hs' d j, h3 d hdj, if_pos hd]
    simp [starB, hd]
  · intro d _ hd
    simp [starB, hd]

/-- `C`, one covariance per environment, is entailed by a model over `A` without latents whose noise variances are positive and,
outside `I`, the same in all environments. -/
def Spec.EntailedBy (I : Finset (Fin p)) (A : Adj p) (C : Fin e → Matrix (Fin p) (Fin p) ℝ) : Prop :=
  ∃ (B : Matrix (Fin p) (Fin p) ℝ) (w : Fin e → Fin p → ℝ), Respects A B ∧ (∀ k i, 0 < w k i) ∧ (∀ k k' i, i ∉ I → w k i = w k' i) ∧
    ∀ k, Entails B (Matrix.diagonal (w k)) (C k)

theorem star_entailed {I : Finset (Fin p)} {G : Adj p} {P : Finset (Fin p)} {j : Fin p} (hj : j ∉ P) (hP : ∀ d ∈ P, Edge G d j)
    (w : Fin e → Fin p → ℝ) (hw : ∀ k i, 0 < w k i) (hc : ∀ k k' i, i ∉ I → w k i = w k' i) :
    ∃ C, EntailedBy I G C ∧ ∀ k, Entails (starB P j) (Matrix.diagonal (w k)) (C k) := by
  have hdet := det_one_sub_transpose (starG_acyclic hj) (starG_respects P j)
  choose C hC using fun k => entails_exists hdet (Matrix.diagonal (w k))
  refine ⟨C, ⟨starB P j, w, ?_, hw, hc, hC⟩, hC⟩
  intro a b hab
  have : ¬ (b = j ∧ a ∈ P) := by rintro ⟨rfl, h⟩; exact hP a h hab
  simp [starB, this]

theorem acyclic_ne {G : Adj p} (hac : Acyclic G) {i j : Fin p} (h : Edge G i j) : i ≠ j := by
  rintro rfl
  exact hac i (.single h)

theorem acyclic_not_reach {G : Adj p} (hac : Acyclic G) {i j : Fin p} (h : Edge G i j) : ¬ Relation.ReflTransGen (Edge G) j i :=
  fun hc => hac j (Relation.TransGen.tail' hc h)

/-- Inclusion of the entailed families: every adjacency of `G` is one of `H`. -/
theorem family_adjacent {I : Finset (Fin p)} {G H : Adj p} (hG : Acyclic G) (hH : Acyclic H) (k0 : Fin e)
    (h : ∀ C : Fin e → Matrix (Fin p) (Fin p) ℝ, EntailedBy I G C → EntailedBy I H C) {i j : Fin p} (hij : Edge G i j) : Adjacent H i j := by
  by_contra hna
  have hne := acyclic_ne hG hij
  have hj : j ∉ ({i} : Finset (Fin p)) := by simpa using hne.symm
  obtain ⟨C, hC1, hC2⟩ := star_entailed (e := e) (I := I) hj (by simpa using hij) (fun _ _ => (1 : ℝ)) (by simp) (by simp)
  obtain ⟨hs, h1, h2, h3, h4⟩ := star_cov hj (hC2 k0)
  obtain ⟨B, w, hB, -, -, hE⟩ := h C hC1
  have hzero : ∀ x y, x ≠ y → y ≠ x → (x = i → y ≠ j) → (x = j → y ≠ i) → C k0 x y = 0 := by
    intro x y hxy _ ha hb
    by_cases hx : x = j
    · subst hx
      rw [h3 y (Ne.symm hxy), if_neg (by simpa using hb rfl)]
    · by_cases hy : y = j
      · subst hy
        rw [hs, h3 x hx, if_neg (by simpa using fun hc => ha hc rfl)]
      · exact h2 x y hx hy hxy
  have hval : C k0 j i = 1 := by rw [h3 i hne]; simp
  have hpar : ∀ x y : Fin p, ¬ Relation.ReflTransGen (Edge H) x y → (x = i ∧ y = j ∨ x = j ∧ y = i) → C k0 x y = 0 := by
    intro x y hxy hcase
    rw [entails_row hH hB (hE k0) x y hxy]
    refine Finset.sum_eq_zero fun d _ => ?_
    by_cases hd : H d x = 0
    · rw [hB d x hd, zero_mul]
    · have hdx := acyclic_ne hH hd
      have hdy : d ≠ y := by
        rintro rfl
        rcases hcase with ⟨rfl, rfl⟩ | ⟨rfl, rfl⟩
        · exact hna (Or.inr hd)
        · exact hna (Or.inl hd)
      have : C k0 d y = 0 := by
        rcases hcase with ⟨rfl, rfl⟩ | ⟨rfl, rfl⟩
        · exact hzero d y hdy hdy.symm (fun hc => absurd hc hdx) (fun hc => absurd hc hdy)
        · exact hzero d y hdy hdy.symm (fun hc => absurd hc hdy) (fun hc => absurd hc hdx)
      rw [this, mul_zero]
  by_cases hr : Relation.ReflTransGen (Edge H) j i
  · have hr' : ¬ Relation.ReflTransGen (Edge H) i j := by
      intro hc
      rcases Relation.reflTransGen_iff_eq_or_transGen.1 hr with h5 | h5
      · exact hne h5
      · exact hH j (h5.trans_left hc)
    have := hpar i j hr' (Or.inl ⟨rfl, rfl⟩)
    rw [hs, hval] at this
    exact one_ne_zero this
  · have := hpar j i hr (Or.inr ⟨rfl, rfl⟩)
    rw [hval] at this
    exact one_ne_zero this

/-- Inclusion of the entailed families: a v-structure of `G` cannot become `b → c` in a graph `H` where `a` and `c` are not adjacent
and `a` does not descend from `c`. -/
theorem family_vstructure_aux {I : Finset (Fin p)} {G H : Adj p} (hH : Acyclic H) (k0 : Fin e)
    (h : ∀ C : Fin e → Matrix (Fin p) (Fin p) ℝ, EntailedBy I G C → EntailedBy I H C) {a b c : Fin p} (hab : Edge G a b) (hcb : Edge G c b)
    (hne : a ≠ c) (hane : a ≠ b) (hcne : c ≠ b) (hna : ¬ Adjacent H a c) (hbc : Edge H b c)
    (hr : ¬ Relation.ReflTransGen (Edge H) c a) : False := by
  have hb : b ∉ ({a, c} : Finset (Fin p)) := by simp [hane.symm, hcne.symm]
  obtain ⟨C, hC1, hC2⟩ := star_entailed (e := e) (I := I) (G := G) hb (by simp [hab, hcb]) (fun _ _ => (1 : ℝ)) (by simp) (by simp)
  obtain ⟨hs, h1, h2, h3, h4⟩ := star_cov hb (hC2 k0)
  obtain ⟨B, w, hB, -, -, hE⟩ := h C hC1
  have hBa : B a c = 0 := hB a c (by by_contra hc; exact hna (Or.inl hc))
  have hBc : B c c = 0 := hB c c (by by_contra hc; exact acyclic_ne hH hc rfl)
  have e1 := entails_row hH hB (hE k0) c a hr
  rw [h2 c a hcne hane hne.symm, Finset.sum_eq_single b] at e1
  · have hba : C k0 b a = 1 := by rw [h3 a hane]; simp
    rw [hba, mul_one] at e1
    have e2 := entails_row hH hB (hE k0) c b (acyclic_not_reach hH hbc)
    rw [Finset.sum_eq_zero, hs, h3 c hcne] at e2
    · simp at e2
    · intro d _
      by_cases hdb : d = b
      · rw [hdb, ← e1, zero_mul]
      · by_cases hda : d = a
        · rw [hda, hBa, zero_mul]
        · by_cases hdc : d = c
          · rw [hdc, hBc, zero_mul]
          · rw [hs, h3 d hdb, if_neg (by simp [hda, hdc]), mul_zero]
  · intro d _ hdb
    by_cases hda : d = a
    · rw [hda, hBa, zero_mul]
    · rw [h2 d a hdb hane hda, mul_zero]
  · simp

theorem family_vstructure {I : Finset (Fin p)} {G H : Adj p} (hG : Acyclic G) (hH : Acyclic H) (hsk : SameSkeleton G H) (k0 : Fin e)
    (h : ∀ C : Fin e → Matrix (Fin p) (Fin p) ℝ, EntailedBy I G C → EntailedBy I H C) {a b c : Fin p} (hv : VStructure G a b c) :
    VStructure H a b c := by
  obtain ⟨⟨hab, -⟩, ⟨hcb, -⟩, hne, hna⟩ := hv
  have hna' : ¬ Adjacent H a c := fun hc => hna ((hsk a c).2 hc)
  have hca' : ¬ Adjacent H c a := fun hc => hna' hc.symm
  have hane := acyclic_ne hG hab
  have hcne := acyclic_ne hG hcb
  have hdir : ∀ x y, Edge H x y → H y x = 0 := by
    intro x y hxy
    by_contra hc
    exact hH x (.tail (.single hxy) hc)
  -- no edge out of the collider
  have key : ∀ a c, Edge G a b → Edge G c b → a ≠ c → a ≠ b → c ≠ b → ¬ Adjacent H a c → ¬ Adjacent H c a → ¬ Edge H b c := by
    intro a c hab hcb hne hane hcne hna' hca' hbc
    by_cases hr : Relation.ReflTransGen (Edge H) c a
    · have hba : Edge H b a := by
        rcases (hsk a b).1 (Or.inl hab) with h5 | h5
        · exact absurd (Relation.TransGen.head' hbc (hr.tail h5)) (hH b)
        · exact h5
      refine family_vstructure_aux hH k0 h hcb hab hne.symm hcne hane hca' hba ?_
      intro hc
      rcases Relation.reflTransGen_iff_eq_or_transGen.1 hr with h5 | h5
      · exact hne h5
      · exact hH c (h5.trans_left hc)
    · exact family_vstructure_aux hH k0 h hab hcb hne hane hcne hna' hbc hr
  have hbc := key a c hab hcb hne hane hcne hna' hca'
  have hba := key c a hcb hab hne.symm hcne hane hca' hna'
  have h1 : Edge H a b := by
    rcases (hsk a b).1 (Or.inl hab) with h5 | h5
    · exact h5
    · exact absurd h5 hba
  have h2 : Edge H c b := by
    rcases (hsk c b).1 (Or.inl hcb) with h5 | h5
    · exact h5
    · exact absurd h5 hbc
  exact ⟨⟨h1, hdir _ _ h1⟩, ⟨h2, hdir _ _ h2⟩, hne, hna'⟩

theorem family_parents {I : Finset (Fin p)} {G H : Adj p} (hG : Acyclic G) (hH : Acyclic H) (hsk : SameSkeleton G H) {k0 k1 : Fin e}
    (hk : k0 ≠ k1) (h : ∀ C : Fin e → Matrix (Fin p) (Fin p) ℝ, EntailedBy I G C → EntailedBy I H C) {i k : Fin p} (hi : i ∈ I)
    (hki : Edge G k i) : Edge H k i := by
  by_contra hc
  have hik : Edge H i k := by
    rcases (hsk k i).1 (Or.inl hki) with h5 | h5
    · exact absurd h5 hc
    · exact h5
  have hne := acyclic_ne hG hki
  have hj : i ∉ ({k} : Finset (Fin p)) := by simpa using hne.symm
  obtain ⟨C, hC1, hC2⟩ := star_entailed (e := e) (I := I) (G := G) hj (by simpa using hki)
    (fun n x => if n = k0 ∧ x = i then (2 : ℝ) else 1) (by intro n x; positivity)
    (by intro n n' x hx; have : x ≠ i := fun hc => hx (hc ▸ hi); simp [this])
  obtain ⟨B, w, hB, -, -, hE⟩ := h C hC1
  have hBk : B k k = 0 := hB k k (by by_contra hc; exact acyclic_ne hH hc rfl)
  have key : ∀ n, 1 = B i k * C n i i := by
    intro n
    obtain ⟨hs, h1, h2, h3, h4⟩ := star_cov hj (hC2 n)
    have e1 := entails_row hH hB (hE n) k i (acyclic_not_reach hH hik)
    rw [hs, h3 k hne, Finset.sum_eq_single i] at e1
    · simpa [hne] using e1
    · intro d _ hdi
      by_cases hdk : d = k
      · rw [hdk, hBk, zero_mul]
      · rw [hs, h3 d hdi, if_neg (by simpa using hdk), mul_zero]
    · simp
  have e0 := key k0
  have e1 := key k1
  rw [(star_cov hj (hC2 k0)).2.2.2.2] at e0
  rw [(star_cov hj (hC2 k1)).2.2.2.2] at e1
  simp [hne] at e0
  simp [hk.symm] at e1
  linarith

theorem markov_of_families {I : Finset (Fin p)} {G H : Adj p} (hG : Acyclic G) (hH : Acyclic H) (k0 : Fin e)
    (h : ∀ C : Fin e → Matrix (Fin p) (Fin p) ℝ, EntailedBy I G C ↔ EntailedBy I H C) : MarkovEquiv G H := by
  have hsk : SameSkeleton G H := by
    intro i j
    constructor
    · rintro (h1 | h1)
      · exact family_adjacent hG hH k0 (fun C => (h C).1) h1
      · exact (family_adjacent hG hH k0 (fun C => (h C).1) h1).symm
    · rintro (h1 | h1)
      · exact family_adjacent hH hG k0 (fun C => (h C).2) h1
      · exact (family_adjacent hH hG k0 (fun C => (h C).2) h1).symm
  have hsk' : SameSkeleton H G := fun i j => (hsk i j).symm
  exact ⟨hsk, fun i c j => ⟨family_vstructure hG hH hsk k0 fun C => (h C).1, family_vstructure hH hG hsk' k0 fun C => (h C).2⟩⟩

theorem iequiv_of_families {I : Finset (Fin p)} {G H : Adj p} (hG : Acyclic G) (hH : Acyclic H) {k0 k1 : Fin e} (hk : k0 ≠ k1)
    (h : ∀ C : Fin e → Matrix (Fin p) (Fin p) ℝ, EntailedBy I G C ↔ EntailedBy I H C) : IEquiv I G H := by
  have hM := markov_of_families hG hH k0 h
  have hsk' : SameSkeleton H G := fun i j => (hM.1 i j).symm
  exact ⟨hM, fun i hi k => ⟨family_parents hG hH hM.1 hk (fun C => (h C).1) hi, family_parents hH hG hsk' hk (fun C => (h C).2) hi⟩⟩

/-- The covariances of the admissible models of the code without latents are the entailed families of the specification. -/
theorem admissible_iff (it : SetIter p) (I : Finset (Fin p)) {A : Adj p} (hA : Nonneg A) (hac : Acyclic A) (psis : Matrix (Fin e) (Fin 0) ℝ)
    (C : Fin e → Matrix (Fin p) (Fin p) ℝ) :
    (∃ m, Admissible it I A psis m ∧ m.covariances = .ok C) ↔ EntailedBy I A C := by
  constructor
  · rintro ⟨m, ⟨B, gamma, omegas, h1, h2, h3⟩, hm⟩
    obtain ⟨-, hB, -⟩ := mkModel_ok hA h1
    obtain ⟨-, C', hC', hent⟩ := C35_covariances it A hA B gamma omegas psis m h1
    rw [hm] at hC'
    cases hC'
    exact ⟨B, omegas, hB, h2, h3, fun k => by rw [← noiseCov_zero gamma (psis k)]; exact (hent k).1⟩
  · rintro ⟨B, w, hB, h2, h3, hent⟩
    have hmk := mkModel_eq_ok (it := it) hA 0 w psis hac hB
    refine ⟨_, ⟨B, 0, w, hmk, h2, h3⟩, ?_⟩
    obtain ⟨-, C', hC', hent'⟩ := C35_covariances it A hA B 0 w psis _ hmk
    rw [hC']
    congr 1
    funext k
    refine ((hent' k).2 _ ?_).symm
    rw [noiseCov_zero]
    exact hent k

/-- C101: with at least two environments and no latents, the models over two DAGs entail the same covariances exactly when the DAGs
are in the same interventional equivalence class: the class the code returns cannot be refined from covariances, and no coarser
class would do. -/
theorem C101_identified (it : SetIter p) (G H : Adj p) (hG : Nonneg G) (hH : Nonneg H) (hacG : Acyclic G) (hacH : Acyclic H)
    (I : Finset (Fin p)) (he : 2 ≤ e) (psis : Matrix (Fin e) (Fin 0) ℝ) :
    (∀ C, (∃ m, Admissible it I G psis m ∧ m.covariances = .ok C) ↔ ∃ m, Admissible it I H psis m ∧ m.covariances = .ok C) ↔
      IEquiv I G H := by
  constructor
  · intro h
    refine iequiv_of_families hacG hacH (k0 := (⟨0, by omega⟩ : Fin e)) (k1 := ⟨1, by omega⟩) (by simp) fun C => ?_
    rw [← admissible_iff it I hG hacG psis C, ← admissible_iff it I hH hacH psis C]
    exact h C
  · intro hE C
    constructor
    · rintro ⟨m, ⟨B, gamma, omegas, h1, h2, h3⟩, hm⟩
      obtain ⟨B', gamma', omegas', m', k1, k2, k3, -, C', k4, k5⟩ :=
        C85_same_covariances it G H hG hH hacH I hE B gamma omegas psis h2 h3 m h1
      rw [hm] at k4
      cases k4
      exact ⟨m', ⟨B', gamma', omegas', k1, k2, k3⟩, k5⟩
    · rintro ⟨m, ⟨B, gamma, omegas, h1, h2, h3⟩, hm⟩
      obtain ⟨B', gamma', omegas', m', k1, k2, k3, -, C', k4, k5⟩ :=
        C85_same_covariances it H G hH hG hacG I (iequiv_symm hE) B gamma omegas psis h2 h3 m h1
      rw [hm] at k4
      cases k4
      exact ⟨m', ⟨B', gamma', omegas', k1, k2, k3⟩, k5⟩

/-- C101: with a single environment the targets leave no trace: the models over two DAGs entail the same covariances exactly when the
DAGs are Markov equivalent, whatever the targets. -/
theorem C101_one_environment (it : SetIter p) (G H : Adj p) (hG : Nonneg G) (hH : Nonneg H) (hacG : Acyclic G) (hacH : Acyclic H)
    (I : Finset (Fin p)) (psis : Matrix (Fin 1) (Fin 0) ℝ) :
    (∀ C, (∃ m, Admissible it I G psis m ∧ m.covariances = .ok C) ↔ ∃ m, Admissible it I H psis m ∧ m.covariances = .ok C) ↔
      MarkovEquiv G H := by
  have hI : ∀ (A : Adj p) (m : LModel p 0 1), Admissible it I A psis m ↔ Admissible it ∅ A psis m := by
    intro A m
    constructor
    · rintro ⟨B, gamma, omegas, h1, h2, -⟩
      exact ⟨B, gamma, omegas, h1, h2, fun k k' i _ => by rw [Subsingleton.elim k k']⟩
    · rintro ⟨B, gamma, omegas, h1, h2, -⟩
      exact ⟨B, gamma, omegas, h1, h2, fun k k' i _ => by rw [Subsingleton.elim k k']⟩
  constructor
  · intro h
    have h' : ∀ C : Fin 1 → Matrix (Fin p) (Fin p) ℝ, EntailedBy I G C ↔ EntailedBy I H C := by
      intro C
      rw [← admissible_iff it I hG hacG psis C, ← admissible_iff it I hH hacH psis C]
      exact h C
    exact markov_of_families hacG hacH 0 h'
  · intro hM C
    simp only [hI]
    have hE : ∀ {X Y : Adj p}, Nonneg X → Nonneg Y → Acyclic Y → IEquiv ∅ X Y → (∃ m, Admissible it ∅ X psis m ∧ m.covariances = .ok C) →
        ∃ m, Admissible it ∅ Y psis m ∧ m.covariances = .ok C := by
      rintro X Y hX hY hacY hE ⟨m, ⟨B, gamma, omegas, h1, h2, h3⟩, hm⟩
      obtain ⟨B', gamma', omegas', m', k1, k2, k3, -, C', k4, k5⟩ :=
        C85_same_covariances it X Y hX hY hacY ∅ hE B gamma omegas psis h2 h3 m h1
      rw [hm] at k4
      cases k4
      exact ⟨m', ⟨B', gamma', omegas', k1, k2, k3⟩, k5⟩
    exact ⟨hE hG hH hacH ⟨hM, by simp [SameParentsAt]⟩, hE hH hG hacG (iequiv_symm ⟨hM, by simp [SameParentsAt]⟩)⟩

/-- A positive definite matrix stays positive semidefinite when a small multiple of the identity is subtracted. -/
theorem posDef_sub {n : Nat} {X : Matrix (Fin n) (Fin n) ℝ} (hX : X.PosDef) :
    ∃ ε : ℝ, 0 < ε ∧ ∀ δ, δ ≤ ε → (X - δ • (1 : Matrix (Fin n) (Fin n) ℝ)).PosSemidef := by
  obtain ⟨ε, hε, hle⟩ : ∃ ε : ℝ, 0 < ε ∧ ∀ i, ε ≤ hX.1.eigenvalues i := by
    rcases isEmpty_or_nonempty (Fin n) with hn | hn
    · exact ⟨1, one_pos, fun i => (hn.false i).elim⟩
    · obtain ⟨i, -, hi⟩ := Finset.exists_min_image (Finset.univ : Finset (Fin n)) hX.1.eigenvalues ⟨hn.some, Finset.mem_univ _⟩
      exact ⟨_, hX.eigenvalues_pos i, fun j => hi j (Finset.mem_univ _)⟩
  refine ⟨ε, hε, fun δ hδ => ?_⟩
  set U : Matrix (Fin n) (Fin n) ℝ := (hX.1.eigenvectorUnitary : Matrix (Fin n) (Fin n) ℝ) with hU
  have hUU : U * Uᴴ = 1 := by
    have := Unitary.mul_star_self_of_mem hX.1.eigenvectorUnitary.2
    rwa [Matrix.star_eq_conjTranspose] at this
  have hsp : X = U * diagonal hX.1.eigenvalues * Uᴴ := by
    have := hX.1.spectral_theorem
    simpa [Unitary.conjStarAlgAut_apply, Matrix.star_eq_conjTranspose, Function.comp_def] using this
  have hdecomp : X - δ • (1 : Matrix (Fin n) (Fin n) ℝ) = U * diagonal (fun i => hX.1.eigenvalues i - δ) * Uᴴ := by
    have hd : diagonal (fun i => hX.1.eigenvalues i - δ) = diagonal hX.1.eigenvalues - δ • (1 : Matrix (Fin n) (Fin n) ℝ) := by
      ext i j
      by_cases hij : i = j
      · subst hij; simp
      · simp [hij]
    rw [hd, Matrix.mul_sub, Matrix.sub_mul, ← hsp, Matrix.mul_smul, Matrix.mul_one, Matrix.smul_mul, hUU]
  rw [hdecomp]
  exact (Matrix.PosSemidef.diagonal fun i => sub_nonneg.2 (hδ.trans (hle i))).mul_mul_conjTranspose_same U

/-- C101, boundary: the number of latents must be restricted.  With as many latents as there are pairs of an environment and a
variable, every DAG, even the one without edges, entails every choice of positive definite covariances, with noise variances that
do not change between environments: no graph can be told from another. -/
theorem C101_many_latents (it : SetIter p) (A : Adj p) (hA : Nonneg A) (hac : Acyclic A) (C : Fin e → Matrix (Fin p) (Fin p) ℝ)
    (hC : ∀ k, (C k).PosDef) :
    ∃ (psis : Matrix (Fin e) (Fin (e * p)) ℝ) (m : LModel p (e * p) e), (∀ k i, 0 ≤ psis k i) ∧ Admissible it ∅ A psis m ∧ m.B = 0 ∧
      m.covariances = .ok C := by
  choose ε hε hsub using fun k => posDef_sub (hC k)
  obtain ⟨δ, hδ, hle⟩ : ∃ δ : ℝ, 0 < δ ∧ ∀ k, δ ≤ ε k := by
    rcases isEmpty_or_nonempty (Fin e) with hn | hn
    · exact ⟨1, one_pos, fun i => (hn.false i).elim⟩
    · obtain ⟨i, -, hi⟩ := Finset.exists_min_image (Finset.univ : Finset (Fin e)) ε ⟨hn.some, Finset.mem_univ _⟩
      exact ⟨_, hε i, fun j => hi j (Finset.mem_univ _)⟩
  have hR : ∀ k, ∃ R : Matrix (Fin p) (Fin p) ℝ, C k - δ • (1 : Matrix (Fin p) (Fin p) ℝ) = Rᵀ * R := by
    intro k
    open scoped MatrixOrder in
    obtain ⟨Q, hQ⟩ := CStarAlgebra.nonneg_iff_eq_star_mul_self.mp (hsub k δ (hle k)).nonneg
    rw [Matrix.star_eq_conjTranspose, Matrix.conjTranspose_eq_transpose_of_trivial] at hQ
    exact ⟨Q, hQ⟩
  choose R hR using hR
  set gamma : Matrix (Fin (e * p)) (Fin p) ℝ := Matrix.of fun b i => R (finProdFinEquiv.symm b).1 (finProdFinEquiv.symm b).2 i with hg
  set psis : Matrix (Fin e) (Fin (e * p)) ℝ := Matrix.of fun k b => if (finProdFinEquiv.symm b).1 = k then 1 else 0 with hps
  have hB : Respects A (0 : Matrix (Fin p) (Fin p) ℝ) := fun _ _ _ => rfl
  have hmk := mkModel_eq_ok (it := it) hA gamma (Matrix.of fun _ _ => δ : Matrix (Fin e) (Fin p) ℝ) psis hac hB
  refine ⟨psis, _, ?_, ⟨0, gamma, _, hmk, fun _ _ => hδ, fun _ _ _ _ => rfl⟩, rfl, ?_⟩
  · intro k b
    simp only [hps, Matrix.of_apply]
    split_ifs <;> norm_num
  · obtain ⟨-, C', hC', hent⟩ := C35_covariances it A hA 0 gamma _ psis _ hmk
    rw [hC']
    congr 1
    funext k
    refine ((hent k).2 _ ?_).symm
    unfold Entails
    simp only [Matrix.transpose_zero, sub_zero, Matrix.transpose_one, Matrix.one_mul, Matrix.mul_one]
    have h1 : C k = (R k)ᵀ * R k + δ • (1 : Matrix (Fin p) (Fin p) ℝ) := by rw [← hR k]; simp
    rw [h1]
    ext i j
    rw [Matrix.add_apply, Matrix.mul_apply]
    unfold noiseCov
    congr 1
    · rw [← finProdFinEquiv.sum_comp, Fintype.sum_prod_type]
      simp only [hg, hps, Matrix.of_apply, Equiv.symm_apply_apply, Matrix.transpose_apply]
      rw [Finset.sum_eq_single k]
      · simp
      · intro b _ hb
        simp [hb]
      · simp
    · simp [Matrix.one_apply]

/-- C101: hence two graphs of different interventional equivalence classes can be told apart by the score: there are covariances, one
per environment, on which some model over one of the graphs scores strictly better than every model over the other, whatever the
sample sizes. -/
theorem C101_separated (it : SetIter p) (G H : Adj p) (hG : Nonneg G) (hH : Nonneg H) (hacG : Acyclic G) (hacH : Acyclic H)
    (I : Finset (Fin p)) (he : 2 ≤ e) (psis : Matrix (Fin e) (Fin 0) ℝ) (hne : ¬ IEquiv I G H) :
    ∃ S : Fin e → Matrix (Fin p) (Fin p) ℝ, (∀ k, (S k).PosDef) ∧ ∃ G' H' : Adj p, (G' = G ∧ H' = H ∨ G' = H ∧ H' = G) ∧
      ∃ m, Admissible it I G' psis m ∧ ∀ n : Fin e → Nat, (∀ k, 0 < n k) → ∃ s, m.score (List.ofFn S) (List.ofFn n) = .ok (some s) ∧
        ∀ m', Admissible it I H' psis m' → ∃ s', m'.score (List.ofFn S) (List.ofFn n) = .ok (some s') ∧ s < s' := by
  have key : ∀ G' H' : Adj p, Nonneg G' → Nonneg H' → ∀ S, (∃ m, Admissible it I G' psis m ∧ m.covariances = .ok S) →
      (¬ ∃ m, Admissible it I H' psis m ∧ m.covariances = .ok S) → (∀ k, (S k).PosDef) ∧
      ∃ m, Admissible it I G' psis m ∧ ∀ n : Fin e → Nat, (∀ k, 0 < n k) → ∃ s, m.score (List.ofFn S) (List.ofFn n) = .ok (some s) ∧
        ∀ m', Admissible it I H' psis m' → ∃ s', m'.score (List.ofFn S) (List.ofFn n) = .ok (some s') ∧ s < s' := by
    rintro G' H' hG' hH' S ⟨m, ⟨B, gamma, omegas, h1, h2, h3⟩, hm⟩ hno
    have hp : ∀ k i, 0 ≤ psis k i := fun _ i => i.elim0
    have hS : ∀ k, (S k).PosDef := by
      obtain ⟨-, ⟨C, hC, hCp⟩, -⟩ := C36_posDef it G' hG' B gamma omegas psis m h1 h2 hp
      rw [hm] at hC
      cases hC
      exact fun k => (hCp k).1
    refine ⟨hS, m, ⟨B, gamma, omegas, h1, h2, h3⟩, fun n hn => ?_⟩
    have hprop : Proper it m := ⟨G', B, gamma, omegas, psis, hG', h1, h2, hp⟩
    obtain ⟨s, -, hs, -⟩ := C88_truth_minimises it m hprop m hprop n hn (by omega) S hm
    refine ⟨s, hs, ?_⟩
    rintro m' ⟨B', gamma', omegas', k1, k2, k3⟩
    obtain ⟨s₀, s', hs₀, hs', hle, hiff⟩ :=
      C88_truth_minimises it m hprop m' ⟨H', B', gamma', omegas', psis, hH', k1, k2, hp⟩ n hn (by omega) S hm
    rw [hs] at hs₀
    cases hs₀
    exact ⟨s', hs', lt_of_le_of_ne hle fun heq => hno ⟨m', ⟨B', gamma', omegas', k1, k2, k3⟩, hiff.1 heq.symm⟩⟩
  have hnot : ¬ ∀ C, (∃ m, Admissible it I G psis m ∧ m.covariances = .ok C) ↔ ∃ m, Admissible it I H psis m ∧ m.covariances = .ok C :=
    fun hc => hne ((C101_identified it G H hG hH hacG hacH I he psis).1 hc)
  push Not at hnot
  obtain ⟨S, ⟨h1, h2⟩ | ⟨h1, h2⟩⟩ := hnot
  · obtain ⟨h3, h4⟩ := key G H hG hH S h1 (by push Not; exact h2)
    exact ⟨S, h3, G, H, Or.inl ⟨rfl, rfl⟩, h4⟩
  · obtain ⟨h3, h4⟩ := key H G hH hG S h2 (by push Not; exact h1)
    exact ⟨S, h3, H, G, Or.inr ⟨rfl, rfl⟩, h4⟩

/-- Examples for C101: `0 → 1` and `1 → 0` with the target `0` and two environments. -/
theorem exPair : Nonneg (![![0, 1], ![0, 0]] : Adj 2) ∧ Nonneg (![![0, 0], ![1, 0]] : Adj 2) ∧ Acyclic (![![0, 1], ![0, 0]] : Adj 2) ∧
    Acyclic (![![0, 0], ![1, 0]] : Adj 2) ∧ ¬ IEquiv {0} (![![0, 1], ![0, 0]] : Adj 2) ![![0, 0], ![1, 0]] ∧
    IEquiv ∅ (![![0, 1], ![0, 0]] : Adj 2) ![![0, 0], ![1, 0]] := by
  have hG : Nonneg (![![0, 1], ![0, 0]] : Adj 2) := by unfold Nonneg; decide
  have hH : Nonneg (![![0, 0], ![1, 0]] : Adj 2) := by unfold Nonneg; decide
  refine ⟨hG, hH, (isDag_iff (SetIter.incr 2) hG).1 (by decide), (isDag_iff (SetIter.incr 2) hH).1 (by decide), ?_, ?_⟩
  · intro h
    have := h.2 0 (by simp) 1
    simp [Edge] at this
  · refine ⟨⟨fun i j => ?_, fun i c j => ?_⟩, by simp [SameParentsAt]⟩
    · unfold Adjacent
      fin_cases i <;> fin_cases j <;> simp
    · unfold VStructure DirEdge Adjacent
      fin_cases i <;> fin_cases c <;> fin_cases j <;> simp

example (it : SetIter 2) : ¬ ∀ C : Fin 2 → Matrix (Fin 2) (Fin 2) ℝ, (∃ m : LModel 2 0 2, Admissible it {0} ![![0, 1], ![0, 0]] 0 m ∧ m.covariances = .ok C) ↔
    ∃ m : LModel 2 0 2, Admissible it {0} ![![0, 0], ![1, 0]] 0 m ∧ m.covariances = .ok C := fun h =>
  exPair.2.2.2.2.1 ((C101_identified it _ _ exPair.1 exPair.2.1 exPair.2.2.1 exPair.2.2.2.1 {0} le_rfl 0).1 h)

example (it : SetIter 2) (C : Fin 3 → Matrix (Fin 2) (Fin 2) ℝ) : (∃ m : LModel 2 0 3, Admissible it ∅ ![![0, 1], ![0, 0]] 0 m ∧ m.covariances = .ok C) ↔
    ∃ m : LModel 2 0 3, Admissible it ∅ ![![0, 0], ![1, 0]] 0 m ∧ m.covariances = .ok C :=
  (C101_identified it _ _ exPair.1 exPair.2.1 exPair.2.2.1 exPair.2.2.2.1 ∅ (by norm_num) 0).2 exPair.2.2.2.2.2 C

example (it : SetIter 2) : ∃ S : Fin 2 → Matrix (Fin 2) (Fin 2) ℝ, (∀ k, (S k).PosDef) ∧ ∃ G' H' : Adj 2,
    (G' = ![![0, 1], ![0, 0]] ∧ H' = ![![0, 0], ![1, 0]] ∨ G' = ![![0, 0], ![1, 0]] ∧ H' = ![![0, 1], ![0, 0]]) ∧
      ∃ m : LModel 2 0 2, Admissible it {0} G' 0 m ∧ ∀ n : Fin 2 → Nat, (∀ k, 0 < n k) → ∃ s, m.score (List.ofFn S) (List.ofFn n) = .ok (some s) ∧
        ∀ m' : LModel 2 0 2, Admissible it {0} H' 0 m' → ∃ s', m'.score (List.ofFn S) (List.ofFn n) = .ok (some s') ∧ s < s' :=
  C101_separated it _ _ exPair.1 exPair.2.1 exPair.2.2.1 exPair.2.2.2.1 {0} le_rfl 0 exPair.2.2.2.2.1

/-- An example for `C101_many_latents`: the graph without edges and two correlated variables in three environments. -/
example (it : SetIter 2) : ∃ (psis : Matrix (Fin 3) (Fin (3 * 2)) ℝ) (m : LModel 2 (3 * 2) 3), (∀ k i, 0 ≤ psis k i) ∧
    Admissible it ∅ ![![0, 0], ![0, 0]] psis m ∧ m.B = 0 ∧ m.covariances = .ok (fun _ => !![1, 1; 1, 2]) := by
  have hA : Nonneg (![![0, 0], ![0, 0]] : Adj 2) := by unfold Nonneg; decide
  refine C101_many_latents it _ hA ((isDag_iff (SetIter.incr 2) hA).1 (by decide)) _ fun _ => ?_
  have : (!![1, 1; 1, 2] : Matrix (Fin 2) (Fin 2) ℝ) = (!![1, 1; 0, 1] : Matrix (Fin 2) (Fin 2) ℝ)ᴴ * !![1, 1; 0, 1] := by
    rw [Matrix.conjTranspose_eq_transpose_of_trivial]
    ext i j
    fin_cases i <;> fin_cases j <;> norm_num [Matrix.mul_apply, Fin.sum_univ_two]
  rw [this]
  refine Matrix.PosDef.conjTranspose_mul_self _ (Matrix.mulVec_injective_of_isUnit ?_)
  rw [Matrix.isUnit_iff_isUnit_det]
  simp [Matrix.det_fin_two]

end Verif
