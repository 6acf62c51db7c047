import Verif.Proof.Rank
import Verif.Proof.LModel
import Mathlib.Data.Matrix.Basis

/-!
# Covered edges

An edge `x → y` is covered if `x` and `y` have the same other parents.  Equivalent DAGs are connected by reversals of covered edges
(Chickering), and a reversal can be compensated by the parameters.
-/

namespace Verif

open Spec Matrix

variable {p l e : Nat}

/-- `x → y`, and the other parents of `y` are the parents of `x`. -/
def Covered (G : Adj p) (x y : Fin p) : Prop := Edge G x y ∧ ∀ z, z ≠ x → (Edge G z y ↔ Edge G z x)

/-- The graph with `x → y` replaced by `y → x`. -/
def reverseEdge (G : Adj p) (x y : Fin p) : Adj p :=
  fun a b => if a = x ∧ b = y then 0 else if a = y ∧ b = x then 1 else G a b

theorem edge_reverse {G : Adj p} {x y a b : Fin p} : Edge (reverseEdge G x y) a b ↔
    ¬ (a = x ∧ b = y) ∧ ((a = y ∧ b = x) ∨ Edge G a b) := by
  unfold Edge reverseEdge
  split_ifs with h1 h2
  · simp [h1]
  · exact ⟨fun _ => ⟨h1, Or.inl h2⟩, fun _ => one_ne_zero⟩
  · simp [h1, h2]

theorem Covered.ne {G : Adj p} {x y : Fin p} (hac : Acyclic G) (h : Covered G x y) : x ≠ y := by
  rintro rfl
  exact h.1 (hac.noLoops x)

theorem acyclic_reverse {G : Adj p} {x y : Fin p} (hac : Acyclic G) (h : Covered G x y) : Acyclic (reverseEdge G x y) := by
  obtain ⟨r, hr⟩ := hac.exists_rank
  have hxy := h.ne hac
  refine acyclic_of_rank (fun z => if z = y then 2 * r x else 2 * r z + 1) (fun a b hab => ?_)
  rw [edge_reverse] at hab
  obtain ⟨h1, ⟨rfl, rfl⟩ | h2⟩ := hab
  · simp [hxy]
  · have hlt := hr a b h2
    by_cases ha : a = y
    · subst ha
      have hb : b ≠ a := by rintro rfl; omega
      have := hr x a h.1
      simp only [if_true, hb, if_false]
      omega
    · by_cases hb : b = y
      · subst hb
        have hax : a ≠ x := fun hc => h1 ⟨hc, rfl⟩
        have := hr a x ((h.2 a hax).1 h2)
        simp only [ha, if_false, if_true]
        omega
      · simp only [ha, hb, if_false]
        omega

theorem adjacent_reverse {G : Adj p} {x y : Fin p} (hxy : x ≠ y) (h : Covered G x y) (a b : Fin p) :
    Adjacent (reverseEdge G x y) a b ↔ Adjacent G a b := by
  show Edge _ a b ∨ Edge _ b a ↔ Edge G a b ∨ Edge G b a
  rw [edge_reverse, edge_reverse]
  by_cases h1 : a = x ∧ b = y
  · obtain ⟨rfl, rfl⟩ := h1
    simp [hxy, h.1]
  · by_cases h2 : a = y ∧ b = x
    · obtain ⟨rfl, rfl⟩ := h2
      simp [hxy, Ne.symm hxy, h.1]
    · have h3 : ¬ (b = x ∧ a = y) := fun hc => h2 ⟨hc.2, hc.1⟩
      have h4 : ¬ (b = y ∧ a = x) := fun hc => h1 ⟨hc.2, hc.1⟩
      simp [h1, h2, h3, h4]

/-- In a DAG the v-structures are pairs of edges. -/
theorem vstructure_iff {G : Adj p} (hac : Acyclic G) {i c j : Fin p} :
    VStructure G i c j ↔ Edge G i c ∧ Edge G j c ∧ i ≠ j ∧ ¬ Adjacent G i j := by
  have hd : ∀ a b, DirEdge G a b ↔ Edge G a b := by
    intro a b
    refine ⟨fun h => h.1, fun h => ⟨h, ?_⟩⟩
    by_contra hc
    exact hac a (Relation.TransGen.tail (Relation.TransGen.single h) hc)
  unfold VStructure
  rw [hd, hd]

theorem markov_reverse {G : Adj p} {x y : Fin p} (hac : Acyclic G) (h : Covered G x y) : MarkovEquiv (reverseEdge G x y) G := by
  have hxy := h.ne hac
  refine ⟨fun a b => adjacent_reverse hxy h a b, fun i c j => ?_⟩
  rw [vstructure_iff hac, vstructure_iff (acyclic_reverse hac h), adjacent_reverse hxy h]
  constructor
  · rintro ⟨h1, h2, h3, h4⟩
    rw [edge_reverse] at h1 h2
    obtain ⟨g1, ⟨rfl, rfl⟩ | g1'⟩ := h1
    · obtain ⟨g2, ⟨rfl, -⟩ | g2'⟩ := h2
      · exact absurd rfl h3
      · exact absurd (Or.inr ((h.2 j (by rintro rfl; exact g2' (hac.noLoops _))).2 g2')) h4
    · obtain ⟨g2, ⟨rfl, rfl⟩ | g2'⟩ := h2
      · exact absurd (Or.inl ((h.2 i (by rintro rfl; exact g1' (hac.noLoops _))).2 g1')) h4
      · exact ⟨g1', g2', h3, h4⟩
  · rintro ⟨h1, h2, h3, h4⟩
    refine ⟨edge_reverse.2 ⟨?_, Or.inr h1⟩, edge_reverse.2 ⟨?_, Or.inr h2⟩, h3, h4⟩
    · rintro ⟨rfl, rfl⟩
      exact h4 (Or.inr ((h.2 j (Ne.symm h3)).1 h2))
    · rintro ⟨rfl, rfl⟩
      exact h4 (Or.inl ((h.2 i h3).1 h1))

/-- Chickering: two equivalent DAGs that differ have a covered edge which is reversed in the other. -/
theorem exists_covered {G H : Adj p} (hG : Acyclic G) (hH : Acyclic H) (hm : MarkovEquiv G H) (hd : ∃ a b, Edge G a b ∧ ¬ Edge H a b) :
    ∃ x y, Covered G x y ∧ Edge H y x := by
  classical
  obtain ⟨r, hr⟩ := hG.exists_rank
  have hD : ∀ a b, Edge G a b → ¬ Edge H a b → Edge H b a := fun a b h1 h2 => ((hm.1 a b).1 (Or.inl h1)).resolve_left h2
  have hno : ∀ a b, Edge H a b → ¬ Edge H b a := fun a b h1 h2 => hH a (Relation.TransGen.tail (Relation.TransGen.single h1) h2)
  -- the first head of a reversed edge
  obtain ⟨y, hy, hymin⟩ := Finset.exists_min_image (Finset.univ.filter (fun y => ∃ x, Edge G x y ∧ Edge H y x)) r (by
    obtain ⟨a, b, h1, h2⟩ := hd
    exact ⟨b, by simpa using ⟨a, h1, hD a b h1 h2⟩⟩)
  simp only [Finset.mem_filter, Finset.mem_univ, true_and] at hy hymin
  -- the last tail for this head
  obtain ⟨x, hx, hxmax⟩ := Finset.exists_max_image (Finset.univ.filter (fun x => Edge G x y ∧ Edge H y x)) r (by
    obtain ⟨x, hx⟩ := hy
    exact ⟨x, by simpa using hx⟩)
  simp only [Finset.mem_filter, Finset.mem_univ, true_and] at hx hxmax
  obtain ⟨hxy, hyx⟩ := hx
  have hrxy := hr x y hxy
  refine ⟨x, y, ⟨hxy, fun z hz => ⟨fun hzy => ?_, fun hzx => ?_⟩⟩, hyx⟩
  · -- a parent of `y` is a parent of `x`
    have hrzy := hr z y hzy
    have hadj : Adjacent G z x := by
      by_contra hc
      have hv := (vstructure_iff hG).2 ⟨hzy, hxy, hz, hc⟩
      have hv' := (vstructure_iff hH).1 ((hm.2 _ _ _).1 hv)
      exact hno _ _ hyx hv'.2.1
    rcases hadj with h1 | h1
    · exact h1
    · exfalso
      have hrxz := hr x z h1
      have hzy' : Edge H z y := by
        by_contra hc
        have := hxmax z ⟨hzy, hD z y hzy hc⟩
        omega
      have hzx' : Edge H z x := by
        rcases (hm.1 x z).1 (Or.inl h1) with h2 | h2
        · exact absurd (Relation.TransGen.tail (Relation.TransGen.tail (Relation.TransGen.single (show Edge H x z from h2)) hzy') hyx) (hH x)
        · exact h2
      have := hymin z ⟨x, h1, hzx'⟩
      omega
  · -- a parent of `x` is a parent of `y`
    have hrzx := hr z x hzx
    have hzx' : Edge H z x := by
      by_contra hc
      have := hymin x ⟨z, hzx, hD z x hzx hc⟩
      omega
    have hzy : z ≠ y := by rintro rfl; omega
    have hadj : Adjacent G z y := by
      by_contra hc
      have hc' : ¬ Adjacent H z y := fun h => hc ((hm.1 _ _).2 h)
      have hv := (hm.2 _ _ _).2 ((vstructure_iff hH).2 ⟨hzx', hyx, hzy, hc'⟩)
      have hv' := (vstructure_iff hG).1 hv
      have := hr y x hv'.2.1
      omega
    rcases hadj with h1 | h1
    · exact h1
    · have := hr y z h1
      omega

/-! ### Parameters -/

theorem noiseCov_matrix (gamma : Matrix (Fin l) (Fin p) ℝ) (psi : Fin l → ℝ) (omega : Fin p → ℝ) :
    noiseCov gamma psi omega = gammaᵀ * Matrix.diagonal psi * gamma + Matrix.diagonal omega := by
  ext i j
  unfold noiseCov
  rw [Matrix.add_apply, Matrix.mul_assoc, Matrix.mul_apply, Matrix.diagonal_apply]
  congr 1
  refine Finset.sum_congr rfl (fun x _ => ?_)
  rw [Matrix.diagonal_mul, Matrix.transpose_apply]
  ring

/-- The combination of the structural equations of `x` and `y`: `x` gets `(1 - c b) eqₓ - c eq_y`, `y` gets `b eqₓ + eq_y`. -/
noncomputable def mixMatrix (x y : Fin p) (b c : ℝ) : Matrix (Fin p) (Fin p) ℝ :=
  fun i j => if i = x then (if j = x then 1 - c * b else if j = y then - c else 0)
    else if i = y then (if j = x then b else if j = y then 1 else 0) else if i = j then 1 else 0

theorem mix_mul {q : Nat} {x y : Fin p} (hxy : x ≠ y) (b c : ℝ) (M : Matrix (Fin p) (Fin q) ℝ) (i : Fin p) (j : Fin q) :
    (mixMatrix x y b c * M) i j =
      if i = x then (1 - c * b) * M x j - c * M y j else if i = y then b * M x j + M y j else M i j := by
  rw [Matrix.mul_apply]
  have hsplit : ∀ (f : Fin p → ℝ), (∀ z, z ≠ x → z ≠ y → f z = 0) → ∑ z, f z = f x + f y := by
    intro f hf
    rw [← Finset.sum_subset (Finset.subset_univ {x, y}) (fun z _ hz => by
      simp only [Finset.mem_insert, Finset.mem_singleton, not_or] at hz
      exact hf z hz.1 hz.2), Finset.sum_pair hxy]
  unfold mixMatrix
  split_ifs with h1 h2
  · rw [hsplit _ (fun z h3 h4 => by simp [h3, h4])]
    simp [hxy.symm]
    ring
  · rw [hsplit _ (fun z h3 h4 => by simp [h3, h4])]
    simp [hxy.symm]
  · simp

/-- The reversal of a covered edge is compensated by the parameters, if the noise variances of both ends are the same in all environments. -/
theorem reverse_params {G : Adj p} (hac : Acyclic G) {x y : Fin p} (hc : Covered G x y) {B : Matrix (Fin p) (Fin p) ℝ} (hB : Respects G B)
    (gamma : Matrix (Fin l) (Fin p) ℝ) (omegas : Matrix (Fin e) (Fin p) ℝ) (hpos : ∀ k i, 0 < omegas k i) {wx wy : ℝ} (hwx : 0 < wx)
    (hwy : 0 < wy) (hx : ∀ k, omegas k x = wx) (hy : ∀ k, omegas k y = wy) :
    ∃ (B' : Matrix (Fin p) (Fin p) ℝ) (gamma' : Matrix (Fin l) (Fin p) ℝ) (omegas' : Matrix (Fin e) (Fin p) ℝ),
      Respects (reverseEdge G x y) B' ∧ (∀ k i, 0 < omegas' k i) ∧ (∀ k i, i ≠ x → i ≠ y → omegas' k i = omegas k i) ∧
      (∀ k k', omegas' k x = omegas' k' x ∧ omegas' k y = omegas' k' y) ∧
      ∀ k (psi : Fin l → ℝ) (C : Matrix (Fin p) (Fin p) ℝ), Entails B (noiseCov gamma psi (omegas k)) C →
        Entails B' (noiseCov gamma' psi (omegas' k)) C := by
  have hxy := hc.ne hac
  have hno : ∀ a b, Edge G a b → B b a = 0 := by
    intro a b h
    refine hB _ _ ?_
    by_contra h'
    exact hac a (Relation.TransGen.tail (Relation.TransGen.single h) h')
  have hloop : ∀ a, B a a = 0 := fun a => hB _ _ (hac.noLoops a)
  have hyx : B y x = 0 := hno _ _ hc.1
  obtain ⟨b, hb⟩ : ∃ b, B x y = b := ⟨_, rfl⟩
  have hs : 0 < wy + b ^ 2 * wx := by positivity
  obtain ⟨c, hcdef⟩ : ∃ c, c = b * wx / (wy + b ^ 2 * wx) := ⟨_, rfl⟩
  have hcs : c * (wy + b ^ 2 * wx) = b * wx := by rw [hcdef]; field_simp
  let T := mixMatrix x y b c
  let B' : Matrix (Fin p) (Fin p) ℝ := (1 - T * (1 - Bᵀ))ᵀ
  let omegas' : Matrix (Fin e) (Fin p) ℝ := fun k i =>
    if i = x then wx * wy / (wy + b ^ 2 * wx) else if i = y then wy + b ^ 2 * wx else omegas k i
  refine ⟨B', (T * gammaᵀ)ᵀ, omegas', ?_, ?_, ?_, ?_, ?_⟩
  · intro a d had
    have had' : ¬ Edge (reverseEdge G x y) a d := fun h => h had
    rw [edge_reverse] at had'
    show (1 - T * (1 - Bᵀ)) d a = 0
    rw [Matrix.sub_apply, mix_mul hxy]
    simp only [Matrix.sub_apply, Matrix.transpose_apply, Matrix.one_apply]
    have hzero : ∀ z, ¬ Edge G a z → B a z = 0 := fun z hz => hB _ _ (not_not.1 hz)
    by_cases hdx : d = x
    · subst hdx
      have hay : a ≠ y := fun h => had' ⟨fun h' => hxy h'.2, Or.inl ⟨h, rfl⟩⟩
      have hax : ¬ Edge G a d := fun h => had' ⟨fun h' => hxy h'.2, Or.inr h⟩
      by_cases ha : a = d
      · subst ha
        simp [hloop, hb, Ne.symm hxy]
      · have : ¬ Edge G a y := fun h => hax ((hc.2 a ha).1 h)
        simp [hzero _ hax, hzero _ this, Ne.symm ha, Ne.symm hay]
    · by_cases hdy : d = y
      · subst hdy
        by_cases hax : a = x
        · subst hax
          simp [hloop, hb, hdx]
        · have had2 : ¬ Edge G a d := fun h => had' ⟨fun h' => hax h'.1, Or.inr h⟩
          have : ¬ Edge G a x := fun h => had2 ((hc.2 a hax).2 h)
          simp [hzero _ had2, hzero _ this, hdx, Ne.symm hax]
      · have : ¬ Edge G a d := fun h => had' ⟨fun h' => hdy h'.2, Or.inr h⟩
        simp [hdx, hdy, hzero _ this]
  · intro k i
    show 0 < (if i = x then wx * wy / (wy + b ^ 2 * wx) else if i = y then wy + b ^ 2 * wx else omegas k i)
    split_ifs
    · positivity
    · exact hs
    · exact hpos k i
  · intro k i h1 h2
    show (if i = x then wx * wy / (wy + b ^ 2 * wx) else if i = y then wy + b ^ 2 * wx else omegas k i) = _
    simp [h1, h2]
  · intro k k'
    constructor
    · show (if x = x then _ else _) = (if x = x then _ else _)
      simp
    · show (if y = x then _ else _) = (if y = x then _ else _)
      simp [Ne.symm hxy]
  · intro k psi C hC
    unfold Entails at hC ⊢
    have h1 : 1 - B'ᵀ = T * (1 - Bᵀ) := by
      show 1 - ((1 - T * (1 - Bᵀ))ᵀ)ᵀ = _
      rw [Matrix.transpose_transpose, sub_sub_cancel]
    have h2 : T * Matrix.diagonal (omegas k) * Tᵀ = Matrix.diagonal (omegas' k) := by
      ext i j
      have hsymm : (T * Matrix.diagonal (omegas k) * Tᵀ) i j = (T * (T * Matrix.diagonal (omegas k))ᵀ) j i := by
        rw [Matrix.transpose_mul, Matrix.diagonal_transpose, ← Matrix.transpose_apply (T * (Matrix.diagonal (omegas k) * Tᵀ)), Matrix.transpose_mul,
          Matrix.transpose_mul, Matrix.transpose_transpose, Matrix.diagonal_transpose]
      rw [hsymm, mix_mul hxy]
      simp only [Matrix.transpose_apply]
      rw [mix_mul hxy, mix_mul hxy, mix_mul hxy]
      simp only [Matrix.diagonal_apply, hx, hy]
      show _ = if i = j then (if i = x then wx * wy / (wy + b ^ 2 * wx) else if i = y then wy + b ^ 2 * wx else omegas k i) else 0
      have e1 : (1 - c * b) * wx * (1 - c * b) + c * wy * c = wx * wy / (wy + b ^ 2 * wx) := by
        rw [hcdef]; field_simp; ring
      have e2 : (1 - c * b) * wx * b - c * wy = 0 := by
        rw [hcdef]; field_simp; ring
      by_cases hix : i = x
      · subst hix
        by_cases hjx : j = i
        · subst hjx
          simp [hxy, Ne.symm hxy]
          linarith
        · by_cases hjy : j = y
          · subst hjy
            simp [hjx, Ne.symm hjx]
            linarith
          · simp [hjx, hjy, Ne.symm hjx, Ne.symm hjy]
      · by_cases hiy : i = y
        · subst hiy
          by_cases hjx : j = x
          · subst hjx
            simp [hix, Ne.symm hix]
            linarith
          · by_cases hjy : j = i
            · subst hjy
              simp [hix, Ne.symm hix]
              ring
            · simp [hix, hjx, hjy, Ne.symm hjx, Ne.symm hjy]
        · by_cases hjx : j = x
          · subst hjx
            simp [hix, hiy]
          · by_cases hjy : j = y
            · subst hjy
              simp [hix, hiy]
            · simp [hix, hiy, hjx, hjy]
    rw [h1, Matrix.transpose_mul]
    have h3 : T * (1 - Bᵀ) * C * ((1 - Bᵀ)ᵀ * Tᵀ) = T * ((1 - Bᵀ) * C * (1 - Bᵀ)ᵀ) * Tᵀ := by
      simp only [Matrix.mul_assoc]
    rw [h3, hC, noiseCov_matrix, noiseCov_matrix, Matrix.mul_add, Matrix.add_mul, h2]
    congr 1
    rw [Matrix.transpose_transpose, Matrix.transpose_mul, Matrix.transpose_transpose]
    simp only [Matrix.mul_assoc]

theorem markov_symm {G H : Adj p} (h : MarkovEquiv G H) : MarkovEquiv H G := ⟨fun i j => (h.1 i j).symm, fun i c j => (h.2 i c j).symm⟩

theorem markov_trans {G H K : Adj p} (h : MarkovEquiv G H) (h' : MarkovEquiv H K) : MarkovEquiv G K :=
  ⟨fun i j => (h.1 i j).trans (h'.1 i j), fun i c j => (h.2 i c j).trans (h'.2 i c j)⟩

open Classical in
/-- The parameters of one DAG are matched by parameters of every interventionally equivalent DAG. -/
theorem iequiv_params (I : Finset (Fin p)) {H : Adj p} (hH : Acyclic H) (n : Nat) : ∀ {G : Adj p}, Acyclic G → IEquiv I G H →
    (Finset.univ.filter (fun q : Fin p × Fin p => Edge G q.1 q.2 ∧ ¬ Edge H q.1 q.2)).card = n →
    ∀ {B : Matrix (Fin p) (Fin p) ℝ}, Respects G B → ∀ (gamma : Matrix (Fin l) (Fin p) ℝ) (omegas : Matrix (Fin e) (Fin p) ℝ),
    (∀ k i, 0 < omegas k i) → (∀ k k' i, i ∉ I → omegas k i = omegas k' i) →
    ∃ (B' : Matrix (Fin p) (Fin p) ℝ) (gamma' : Matrix (Fin l) (Fin p) ℝ) (omegas' : Matrix (Fin e) (Fin p) ℝ),
      Respects H B' ∧ (∀ k i, 0 < omegas' k i) ∧ (∀ k k' i, i ∉ I → omegas' k i = omegas' k' i) ∧
      (∀ k i, i ∈ I → omegas' k i = omegas k i) ∧
      ∀ k (psi : Fin l → ℝ) (C : Matrix (Fin p) (Fin p) ℝ), Entails B (noiseCov gamma psi (omegas k)) C →
        Entails B' (noiseCov gamma' psi (omegas' k)) C := by
  induction n using Nat.strong_induction_on with
  | _ n ih =>
    intro G hG hE hcard B hB gamma omegas hpos hconst
    by_cases hd : ∃ a b, Edge G a b ∧ ¬ Edge H a b
    · obtain ⟨x, y, hc, hyx⟩ := exists_covered hG hH hE.1 hd
      have hHxy : ¬ Edge H x y := fun h => hH x (Relation.TransGen.tail (Relation.TransGen.single h) hyx)
      have hGyx : ¬ Edge G y x := fun h => hG x (Relation.TransGen.tail (Relation.TransGen.single hc.1) h)
      have hyI : y ∉ I := fun h => hHxy ((hE.2 y h x).1 hc.1)
      have hxI : x ∉ I := fun h => hGyx ((hE.2 x h y).2 hyx)
      obtain ⟨wx, hwx, hx⟩ : ∃ wx, 0 < wx ∧ ∀ k, omegas k x = wx := by
        by_cases he : 0 < e
        · exact ⟨omegas ⟨0, he⟩ x, hpos _ _, fun k => hconst _ _ _ hxI⟩
        · exact ⟨1, one_pos, fun k => absurd (Nat.lt_of_le_of_lt (Nat.zero_le _) k.2) he⟩
      obtain ⟨wy, hwy, hy⟩ : ∃ wy, 0 < wy ∧ ∀ k, omegas k y = wy := by
        by_cases he : 0 < e
        · exact ⟨omegas ⟨0, he⟩ y, hpos _ _, fun k => hconst _ _ _ hyI⟩
        · exact ⟨1, one_pos, fun k => absurd (Nat.lt_of_le_of_lt (Nat.zero_le _) k.2) he⟩
      obtain ⟨B₁, gamma₁, omegas₁, hB₁, hpos₁, hsame, hxy₁, hent⟩ := reverse_params hG hc hB gamma omegas hpos hwx hwy hx hy
      have hE' : IEquiv I (reverseEdge G x y) H := by
        refine ⟨markov_trans (markov_reverse hG hc) hE.1, fun i hi k => ?_⟩
        rw [edge_reverse, ← hE.2 i hi k]
        have h1 : i ≠ y := fun h => hyI (h ▸ hi)
        have h2 : i ≠ x := fun h => hxI (h ▸ hi)
        simp [h1, h2]
      have hlt : (Finset.univ.filter (fun q : Fin p × Fin p => Edge (reverseEdge G x y) q.1 q.2 ∧ ¬ Edge H q.1 q.2)).card < n := by
        rw [← hcard]
        refine Finset.card_lt_card ((Finset.ssubset_iff_of_subset ?_).2 ⟨(x, y), ?_, ?_⟩)
        · rintro ⟨a, b⟩ hab
          simp only [Finset.mem_filter, Finset.mem_univ, true_and, edge_reverse] at hab ⊢
          refine ⟨?_, hab.2⟩
          rcases hab.1.2 with ⟨rfl, rfl⟩ | h
          · exact absurd hyx hab.2
          · exact h
        · simp only [Finset.mem_filter, Finset.mem_univ, true_and]
          exact ⟨hc.1, hHxy⟩
        · simp [edge_reverse]
      have hconst₁ : ∀ k k' i, i ∉ I → omegas₁ k i = omegas₁ k' i := by
        intro k k' i hi
        by_cases h1 : i = x
        · subst h1; exact (hxy₁ k k').1
        · by_cases h2 : i = y
          · subst h2; exact (hxy₁ k k').2
          · rw [hsame _ _ h1 h2, hsame _ _ h1 h2, hconst k k' i hi]
      obtain ⟨B', gamma', omegas', h1, h2, h3, h4, h5⟩ := ih _ hlt (acyclic_reverse hG hc) hE' rfl hB₁ gamma₁ omegas₁ hpos₁ hconst₁
      refine ⟨B', gamma', omegas', h1, h2, h3, fun k i hi => ?_, fun k psi C hC => h5 k psi C (hent k psi C hC)⟩
      rw [h4 k i hi, hsame k i (fun h => hxI (h ▸ hi)) (fun h => hyI (h ▸ hi))]
    · push Not at hd
      refine ⟨B, gamma, omegas, fun a b hab => hB _ _ ?_, hpos, hconst, fun _ _ _ => rfl, fun _ _ _ h => h⟩
      by_contra h
      exact hd a b h hab

end Verif
