import Verif.Props.Meek
import Verif.Props.Enum
import Verif.Props.Nested

/-!
# C93: the names of the variables do not matter
-/

namespace Verif

open Spec Matrix

variable {p l e : Nat}

/-- The graph `A` with variable `i` called `σ i` before: node `i` of the new graph is node `σ i` of the old one. -/
def Spec.rename (σ : Equiv.Perm (Fin p)) (A : Adj p) : Adj p := fun i j => A (σ i) (σ j)

section Rename

variable (σ : Equiv.Perm (Fin p))

theorem rename_rename (A : Adj p) : rename σ (rename σ.symm A) = A := by
  funext i j
  simp [rename]

theorem rename_rename' (A : Adj p) : rename σ.symm (rename σ A) = A := by
  funext i j
  simp [rename]

theorem rename_inj {A B : Adj p} : rename σ A = rename σ B ↔ A = B :=
  ⟨fun h => by rw [← rename_rename' σ A, h, rename_rename'], fun h => by rw [h]⟩

theorem rename_nonneg {A : Adj p} (hA : Nonneg A) : Nonneg (rename σ A) := fun _ _ => hA _ _

theorem rename_zeroOne {A : Adj p} : ZeroOne (rename σ A) ↔ ZeroOne A :=
  ⟨fun h i j => by have := h (σ.symm i) (σ.symm j); simpa [rename] using this, fun h _ _ => h _ _⟩

theorem rename_acyclic' {A : Adj p} (h : Acyclic A) : Acyclic (rename σ A) := by
  obtain ⟨f, hf⟩ := h.exists_rank
  exact acyclic_of_rank (fun i => f (σ i)) (fun i j hij => hf _ _ hij)

theorem rename_acyclic {A : Adj p} : Acyclic (rename σ A) ↔ Acyclic A :=
  ⟨fun h => by have := rename_acyclic' σ.symm h; rwa [rename_rename'] at this, rename_acyclic' σ⟩

theorem rename_forall {P : Fin p → Prop} : (∀ i, P (σ i)) ↔ ∀ i, P i :=
  ⟨fun h i => by have := h (σ.symm i); simpa using this, fun h i => h _⟩

theorem rename_vstructure (A : Adj p) (i c j : Fin p) : VStructure (rename σ A) i c j ↔ VStructure A (σ i) (σ c) (σ j) := by
  unfold VStructure
  rw [show (i ≠ j) = (σ i ≠ σ j) by simp]
  rfl

theorem rename_markovEquiv {A B : Adj p} : MarkovEquiv (rename σ A) (rename σ B) ↔ MarkovEquiv A B := by
  unfold MarkovEquiv SameSkeleton SameVStructures
  refine and_congr ?_ ?_
  · rw [← rename_forall σ (P := fun i => ∀ j, Adjacent A i j ↔ Adjacent B i j)]
    refine forall_congr' (fun i => ?_)
    rw [← rename_forall σ (P := fun j => Adjacent A (σ i) j ↔ Adjacent B (σ i) j)]
    exact forall_congr' (fun j => Iff.rfl)
  · rw [← rename_forall σ (P := fun i => ∀ c j, VStructure A i c j ↔ VStructure B i c j)]
    refine forall_congr' (fun i => ?_)
    rw [← rename_forall σ (P := fun c => ∀ j, VStructure A (σ i) c j ↔ VStructure B (σ i) c j)]
    refine forall_congr' (fun c => ?_)
    rw [← rename_forall σ (P := fun j => VStructure A (σ i) (σ c) j ↔ VStructure B (σ i) (σ c) j)]
    refine forall_congr' (fun j => ?_)
    rw [rename_vstructure, rename_vstructure]

theorem rename_isExtension {G P : Adj p} : IsExtension (rename σ G) (rename σ P) ↔ IsExtension G P := by
  have h := rename_markovEquiv σ (A := G) (B := P)
  unfold MarkovEquiv at h
  unfold IsExtension
  have h2 : (∀ i j, DirEdge (rename σ P) i j → Edge (rename σ G) i j) ↔ ∀ i j, DirEdge P i j → Edge G i j := by
    rw [← rename_forall σ (P := fun i => ∀ j, DirEdge P i j → Edge G i j)]
    refine forall_congr' (fun i => ?_)
    rw [← rename_forall σ (P := fun j => DirEdge P (σ i) j → Edge G (σ i) j)]
    exact forall_congr' (fun j => Iff.rfl)
  rw [rename_acyclic, h2, ← and_assoc (a := SameSkeleton _ _), h, and_assoc]

theorem rename_iEquiv {A B : Adj p} {I J : Finset (Fin p)} (hIJ : ∀ i, i ∈ J ↔ σ i ∈ I) :
    IEquiv J (rename σ A) (rename σ B) ↔ IEquiv I A B := by
  unfold IEquiv SameParentsAt
  rw [rename_markovEquiv]
  refine and_congr Iff.rfl ?_
  rw [← rename_forall σ (P := fun i => i ∈ I → ∀ k, Edge A k i ↔ Edge B k i)]
  refine forall_congr' (fun i => ?_)
  rw [hIJ]
  refine imp_congr Iff.rfl ?_
  rw [← rename_forall σ (P := fun k => Edge A k (σ i) ↔ Edge B k (σ i))]
  exact forall_congr' (fun j => Iff.rfl)

theorem rename_exists {Q : Adj p → Prop} : (∃ H, Q (rename σ H)) ↔ ∃ H, Q H :=
  ⟨fun ⟨H, h⟩ => ⟨_, h⟩, fun ⟨H, h⟩ => ⟨rename σ.symm H, by rwa [rename_rename]⟩⟩

/-- C93: `is_dag` gives the same answer. -/
theorem C93_isDag (it it' : SetIter p) (A : Adj p) (hA : Nonneg A) : isDag it (rename σ A) = isDag it' A := by
  rw [Bool.eq_iff_iff, isDag_iff it (rename_nonneg σ hA), isDag_iff it' hA, rename_acyclic]

/-- C93: `dag_to_cpdag` of the renamed graph is the renamed CPDAG; it raises for one exactly if it raises for the other. -/
theorem C93_dag_to_cpdag (it it' : SetIter p) (G : Adj p) (hG : Nonneg G) :
    dagToCpdag it (rename σ G) = (dagToCpdag it' G).map (rename σ) := by
  by_cases hac : Acyclic G
  · obtain ⟨C, h1, h2⟩ := C17_essential_graph it' G hG hac
    obtain ⟨C', h1', h2'⟩ := C17_essential_graph it (rename σ G) (rename_nonneg σ hG) (rename_acyclic' σ hac)
    rw [h1, h1']
    simp only [Except.map]
    congr 1
    funext i j
    have key : (∃ H, Acyclic H ∧ MarkovEquiv (rename σ G) H ∧ Edge H i j) ↔ ∃ H, Acyclic H ∧ MarkovEquiv G H ∧ Edge H (σ i) (σ j) := by
      rw [← rename_exists σ]
      simp only [rename_acyclic, rename_markovEquiv]
      rfl
    by_cases hE : ∃ H, Acyclic H ∧ MarkovEquiv G H ∧ Edge H (σ i) (σ j)
    · rw [(h2' i j).1.2 (key.2 hE)]
      exact ((h2 _ _).1.2 hE).symm
    · rw [(h2' i j).2.2 (fun h => hE (key.1 h))]
      exact ((h2 _ _).2.2 hE).symm
  · rw [(C17_raises_iff_cyclic it' G hG).2 hac, (C17_raises_iff_cyclic it _ (rename_nonneg σ hG)).2 (by rwa [rename_acyclic])]
    rfl

/-- C93: the same for `dag_to_icpdag` when the targets are renamed too. -/
theorem C93_dag_to_icpdag (it it' : SetIter p) (G : Adj p) (hG : Nonneg G) (I J : List (Fin p)) (hIJ : ∀ i, i ∈ J ↔ σ i ∈ I) :
    dagToIcpdag it (rename σ G) J = (dagToIcpdag it' G I).map (rename σ) := by
  by_cases hac : Acyclic G
  · obtain ⟨C, h1, h2⟩ := C21_interventional_essential_graph it' G hG hac I
    obtain ⟨C', h1', h2'⟩ := C21_interventional_essential_graph it (rename σ G) (rename_nonneg σ hG) (rename_acyclic' σ hac) J
    rw [h1, h1']
    simp only [Except.map]
    congr 1
    funext i j
    have key : (∃ H, Acyclic H ∧ IEquiv J.toFinset (rename σ G) H ∧ Edge H i j) ↔
        ∃ H, Acyclic H ∧ IEquiv I.toFinset G H ∧ Edge H (σ i) (σ j) := by
      rw [← rename_exists σ]
      simp only [rename_acyclic, rename_iEquiv σ (I := I.toFinset) (J := J.toFinset) (by simpa using hIJ)]
      rfl
    by_cases hE : ∃ H, Acyclic H ∧ IEquiv I.toFinset G H ∧ Edge H (σ i) (σ j)
    · rw [(h2' i j).1.2 (key.2 hE)]
      exact ((h2 _ _).1.2 hE).symm
    · rw [(h2' i j).2.2 (fun h => hE (key.1 h))]
      exact ((h2 _ _).2.2 hE).symm
  · rw [(C21_raises_iff_cyclic it' G hG I).2 hac, (C21_raises_iff_cyclic it _ (rename_nonneg σ hG) J).2 (by rwa [rename_acyclic])]
    rfl

/-- C93: `mec` and `imec` list the renamed graphs (in some order). -/
theorem C93_mec (it it' : SetIter p) (A : Adj p) (hA : Nonneg A) (hac : Acyclic A) (hp : 0 < p) (c c' : Bool) :
    ∃ l l', mec it (rename σ A) c = .ok l ∧ mec it' A c' = .ok l' ∧ l.Perm (l'.map (rename σ)) := by
  obtain ⟨l, h1, n1, h2⟩ := C24_mec it (rename σ A) (rename_nonneg σ hA) (rename_acyclic' σ hac) c (Or.inl hp)
  obtain ⟨l', h1', n1', h2'⟩ := C24_mec it' A hA hac c' (Or.inl hp)
  refine ⟨l, l', h1, h1', (List.perm_ext_iff_of_nodup n1 (n1'.map (fun _ _ h => (rename_inj σ).1 h))).2 (fun H => ?_)⟩
  rw [h2, List.mem_map]
  constructor
  · rintro ⟨a1, a2, a3⟩
    rw [← rename_rename σ H] at a1 a2 a3
    exact ⟨rename σ.symm H, (h2' _).2 ⟨(rename_zeroOne σ).1 a1, (rename_acyclic σ).1 a2, (rename_markovEquiv σ).1 a3⟩, rename_rename σ H⟩
  · rintro ⟨K, hK, rfl⟩
    obtain ⟨a1, a2, a3⟩ := (h2' K).1 hK
    exact ⟨(rename_zeroOne σ).2 a1, (rename_acyclic σ).2 a2, (rename_markovEquiv σ).2 a3⟩

theorem C93_imec (it it' : SetIter p) (A : Adj p) (hA : Nonneg A) (hac : Acyclic A) (hp : 0 < p) (I J : Finset (Fin p))
    (hIJ : ∀ i, i ∈ J ↔ σ i ∈ I) (c c' : Bool) :
    ∃ l l', imec it (rename σ A) (J.image (fun i : Fin p => (i.val : Int))) c = .ok l ∧
      imec it' A (I.image (fun i : Fin p => (i.val : Int))) c' = .ok l' ∧ l.Perm (l'.map (rename σ)) := by
  obtain ⟨l, h1, n1, h2⟩ := C26_imec it (rename σ A) (rename_nonneg σ hA) (rename_acyclic' σ hac) J c (Or.inl hp)
  obtain ⟨l', h1', n1', h2'⟩ := C26_imec it' A hA hac I c' (Or.inl hp)
  refine ⟨l, l', h1, h1', (List.perm_ext_iff_of_nodup n1 (n1'.map (fun _ _ h => (rename_inj σ).1 h))).2 (fun H => ?_)⟩
  rw [h2, List.mem_map]
  constructor
  · rintro ⟨a1, a2, a3⟩
    rw [← rename_rename σ H] at a1 a2 a3
    exact ⟨rename σ.symm H, (h2' _).2 ⟨(rename_zeroOne σ).1 a1, (rename_acyclic σ).1 a2, (rename_iEquiv σ hIJ).1 a3⟩, rename_rename σ H⟩
  · rintro ⟨K, hK, rfl⟩
    obtain ⟨a1, a2, a3⟩ := (h2' K).1 hK
    exact ⟨(rename_zeroOne σ).2 a1, (rename_acyclic σ).2 a2, (rename_iEquiv σ hIJ).2 a3⟩

/-- C93: `maximally_orient` of the renamed graph is the renamed result, although the rules are tried in the order of the names. -/
theorem C93_maximally_orient (P : Adj p) (hl : NoLoops P) : maximallyOrient (rename σ P) = (maximallyOrient P).map (rename σ) := by
  have hl' : NoLoops (rename σ P) := fun i => hl _
  have hiff : (∃ D, IsExtension D (rename σ P)) ↔ ∃ D, IsExtension D P := by
    rw [← rename_exists σ]
    simp only [rename_isExtension]
  by_cases hD : ∃ D, IsExtension D P
  · obtain ⟨Q, h1, -⟩ := C20_sound_and_closed P hD
    obtain ⟨Q', h1', -⟩ := C20_sound_and_closed _ (hiff.2 hD)
    rw [h1, h1']
    simp only [Except.map]
    congr 1
    funext i j
    have k := C20_maximal P Q hD h1 (σ i) (σ j)
    have k' := C20_maximal _ Q' (hiff.2 hD) h1' i j
    obtain ⟨-, -, w⟩ := C20_only_orients P Q hD h1
    obtain ⟨-, -, w'⟩ := C20_only_orients _ Q' (hiff.2 hD) h1'
    have key : (∃ H, IsExtension H (rename σ P) ∧ Edge H i j) ↔ ∃ H, IsExtension H P ∧ Edge H (σ i) (σ j) := by
      rw [← rename_exists σ]
      simp only [rename_isExtension]
      rfl
    have hk : Q' i j ≠ 0 ↔ Q (σ i) (σ j) ≠ 0 := k'.trans (key.trans k.symm)
    have e1 := w (σ i) (σ j)
    have e2 := w' i j
    show Q' i j = Q (σ i) (σ j)
    have e3 : rename σ P i j = P (σ i) (σ j) := rfl
    by_cases h0 : Q (σ i) (σ j) = 0
    · rw [h0]
      by_contra hc
      exact hk.1 hc h0
    · rw [e1.resolve_left h0, e2.resolve_left (hk.2 h0), e3]
  · rw [(C20_raises_iff P hl).2 hD, (C20_raises_iff _ hl').2 (fun h => hD (hiff.1 h))]
    rfl

/-- C93: `pdag_to_cpdag` of the renamed graph is the renamed result. -/
theorem C93_pdag_to_cpdag (it it' : SetIter p) (P : Adj p) (hP : Nonneg P) (hl : NoLoops P) :
    pdagToCpdag it (rename σ P) = (pdagToCpdag it' P).map (rename σ) := by
  have hl' : NoLoops (rename σ P) := fun i => hl _
  have hiff : (∃ D, IsExtension D (rename σ P)) ↔ ∃ D, IsExtension D P := by
    rw [← rename_exists σ]
    simp only [rename_isExtension]
  obtain ⟨a1, a2⟩ := C19_pdag_to_cpdag it (rename σ P) (rename_nonneg σ hP) hl'
  obtain ⟨b1, b2⟩ := C19_pdag_to_cpdag it' P hP hl
  by_cases hD : ∃ D, IsExtension D P
  · obtain ⟨G, hG⟩ := (C14_pdag_to_dag_complete P hl).2.2 hD
    have hGe := C13_pdag_to_dag_sound P G hl hG
    have hGn := pdagToDag_nonneg hP hl hG
    rw [b2 G hGn hGe it', a2 (rename σ G) (rename_nonneg σ hGn) ((rename_isExtension σ).2 hGe) it]
    exact C93_dag_to_cpdag σ it it' G hGn
  · rw [b1.2 hD, a1.2 (fun h => hD (hiff.1 h))]
    rfl

/-- C93: a model with renamed variables entails the renamed covariances, and has the same score on the renamed data. -/
theorem C93_model (it it' : SetIter p) (A : Adj p) (hA : Nonneg A) (B : Matrix (Fin p) (Fin p) ℝ) (gamma : Matrix (Fin l) (Fin p) ℝ)
    (omegas : Matrix (Fin e) (Fin p) ℝ) (psis : Matrix (Fin e) (Fin l) ℝ) (m : LModel p l e)
    (h : mkModel it A B gamma omegas psis = .ok m) (ho : ∀ k i, 0 < omegas k i) (hp : ∀ k i, 0 ≤ psis k i) :
    ∃ m' C, mkModel it' (rename σ A) (B.submatrix σ σ) (fun x i => gamma x (σ i)) (fun k i => omegas k (σ i)) psis = .ok m' ∧
      m.covariances = .ok C ∧ m'.covariances = .ok (fun k => (C k).submatrix σ σ) ∧
      ∀ (n : Fin e → Nat) (S : Fin e → Matrix (Fin p) (Fin p) ℝ), ∑ k, n k ≠ 0 →
        m'.score (List.ofFn (fun k => (S k).submatrix σ σ)) (List.ofFn n) = m.score (List.ofFn S) (List.ofFn n) := by
  obtain ⟨hac, hB, -⟩ := mkModel_ok hA h
  have hk := mkModel_eq_ok (it := it') (rename_nonneg σ hA) (fun x i => gamma x (σ i) : Matrix (Fin l) (Fin p) ℝ)
    (fun k i => omegas k (σ i) : Matrix (Fin e) (Fin p) ℝ) psis (rename_acyclic' σ hac)
    (show Respects (rename σ A) (B.submatrix σ σ) from fun i j hij => hB _ _ hij)
  obtain ⟨-, C, hC, hC2⟩ := C35_covariances it A hA B gamma omegas psis m h
  obtain ⟨-, C', hC', hC2'⟩ := C35_covariances it' _ (rename_nonneg σ hA) _ _ _ _ _ hk
  have heq : C' = fun k => (C k).submatrix σ σ := by
    funext k
    refine ((hC2' k).2 _ ?_).symm
    have h1 := (hC2 k).1
    unfold Entails at h1 ⊢
    have h2 := congrArg (fun M : Matrix (Fin p) (Fin p) ℝ => M.submatrix σ σ) h1
    have e1 : (1 - (B.submatrix σ σ)ᵀ) = (1 - Bᵀ).submatrix σ σ := by
      ext i j
      simp [Matrix.one_apply]
    rw [e1, Matrix.transpose_submatrix, Matrix.submatrix_mul_equiv, Matrix.submatrix_mul_equiv, h2]
    funext i j
    simp [noiseCov]
  subst heq
  refine ⟨_, C, hk, hC, hC', fun n S hn => ?_⟩
  rw [C37_actual_score it A hA B gamma omegas psis m h ho hp n hn S C hC,
    C37_actual_score it' _ (rename_nonneg σ hA) _ _ _ _ _ hk (fun k i => ho k _) hp n hn _ _ hC']
  congr 2
  refine Finset.sum_congr rfl (fun k _ => ?_)
  congr 2
  unfold gaussNLL
  rw [Matrix.det_submatrix_equiv_self, Matrix.inv_submatrix_equiv, Matrix.submatrix_mul_equiv]
  congr 1
  exact Equiv.sum_comp σ (fun i => ((C k)⁻¹ * S k) i i)

end Rename

/-- Concrete case: `0 → 2 ← 1` with variables 0 and 2 exchanged is `2 → 0 ← 1`; both edges are compelled. -/
example (it : SetIter 3) : dagToCpdag it (![![0, 0, 0], ![1, 0, 0], ![1, 0, 0]] : Adj 3) = .ok ![![0, 0, 0], ![1, 0, 0], ![1, 0, 0]] := by
  have h := C93_dag_to_cpdag (Equiv.swap (0 : Fin 3) 2) it (SetIter.incr 3) ![![0, 0, 1], ![0, 0, 1], ![0, 0, 0]] (by unfold Nonneg; decide)
  rw [show dagToCpdag (SetIter.incr 3) (![![0, 0, 1], ![0, 0, 1], ![0, 0, 0]] : Adj 3) = .ok ![![0, 0, 1], ![0, 0, 1], ![0, 0, 0]] from
    eq_of_okEq (by decide +kernel)] at h
  rw [show rename (Equiv.swap (0 : Fin 3) 2) (![![0, 0, 1], ![0, 0, 1], ![0, 0, 0]] : Adj 3) = ![![0, 0, 0], ![1, 0, 0], ![1, 0, 0]] by
    decide] at h
  rw [h]
  simp only [Except.map]
  congr 1
  decide

/-- Concrete case: `exModel` with its variables exchanged. -/
example (it : SetIter 2) : ∃ m' : LModel 2 1 2,
    mkModel it ![![0, 0], ![1, 0]] (exModel.B.submatrix (Equiv.swap 0 1) (Equiv.swap 0 1)) (fun x i => exModel.gamma x (Equiv.swap 0 1 i))
      (fun k i => exModel.omegas k (Equiv.swap 0 1 i)) exModel.psis = .ok m' ∧
    m'.score (List.ofFn (fun _ : Fin 2 => (!![2, 1; 1, 3] : Matrix (Fin 2) (Fin 2) ℝ))) (List.ofFn ![10, 20]) =
      exModel.score (List.ofFn (fun _ : Fin 2 => (!![3, 1; 1, 2] : Matrix (Fin 2) (Fin 2) ℝ))) (List.ofFn ![10, 20]) := by
  obtain ⟨A, B, gamma, omegas, psis, hA, hmk, ho, hp⟩ := exModel_proper it
  obtain ⟨-, -, hm⟩ := mkModel_ok hA hmk
  obtain ⟨m', C, h1, -, -, h4⟩ := C93_model (Equiv.swap (0 : Fin 2) 1) it it A hA B gamma omegas psis exModel hmk ho hp
  have e1 : exModel.A = A := by rw [hm]
  have e2 : exModel.B = B := by rw [hm]
  have e3 : exModel.gamma = gamma := by rw [hm]
  have e4 : exModel.omegas = omegas := by rw [hm]
  have e5 : exModel.psis = psis := by rw [hm]
  subst e1 e2 e3 e4 e5
  refine ⟨m', ?_, ?_⟩
  · rw [← h1]
    congr 1
    funext i j
    fin_cases i <;> fin_cases j <;> rfl
  · rw [← h4 ![10, 20] (fun _ => !![3, 1; 1, 2]) (by simp [Fin.sum_univ_two])]
    congr 3
    funext k
    ext i j
    fin_cases i <;> fin_cases j <;> simp

end Verif
