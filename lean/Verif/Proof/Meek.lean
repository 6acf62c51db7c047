import Verif.Model.Meek
import Verif.Spec.Meek
import Verif.Proof.MeekAbstract
import Verif.Proof.Cpdag
import Verif.Proof.PdagToDag

namespace Verif
open Spec
variable {p : Nat}

/-! ### the rules -/

theorem rule1_iff (i j : Fin p) (A : Adj p) : rule1 i j A = true ↔ ∃ k, DirEdge A k i ∧ ¬ Adjacent A k j := by
  unfold rule1
  simp only [Bool.and_eq_true, decide_eq_true_eq, Bool.not_eq_true', decide_eq_false_iff_not, Finset.not_subset]
  constructor
  · rintro ⟨_, k, hk, hk'⟩
    rw [mem_pa] at hk
    rw [mem_adj] at hk'
    exact ⟨k, hk, fun hc => hk' hc.symm⟩
  · rintro ⟨k, hk, hk'⟩
    have hm : k ∈ pa i A := mem_pa.2 hk
    exact ⟨Finset.card_pos.2 ⟨k, hm⟩, k, hm, fun hc => hk' (mem_adj.1 hc).symm⟩

theorem rule2_iff (i j : Fin p) (A : Adj p) : rule2 i j A = true ↔ ∃ k, DirEdge A i k ∧ DirEdge A k j := by
  unfold rule2
  rw [decide_eq_true_eq, gt_iff_lt, Finset.card_pos]
  constructor
  · rintro ⟨k, hk⟩
    rw [Finset.mem_inter, mem_ch, mem_pa] at hk
    exact ⟨k, hk.1, hk.2⟩
  · rintro ⟨k, h1, h2⟩
    exact ⟨k, Finset.mem_inter.2 ⟨mem_ch.2 h1, mem_pa.2 h2⟩⟩

theorem rule3_iff (i j : Fin p) (A : Adj p) : rule3 i j A = true ↔
    ∃ k l, k ≠ l ∧ UndEdge A i k ∧ UndEdge A i l ∧ DirEdge A k j ∧ DirEdge A l j ∧ ¬ Adjacent A k l := by
  unfold rule3
  simp only [Bool.and_eq_true, decide_eq_true_eq]
  constructor
  · rintro ⟨_, k, hk, l, hl, hkl⟩
    rw [Finset.mem_inter, mem_neighbors, mem_pa] at hk
    rw [Finset.mem_sdiff, Finset.mem_inter, mem_neighbors, mem_pa, Finset.mem_singleton] at hl
    exact ⟨k, l, fun hc => hl.2 hc.symm, hk.1, hl.1.1, hk.2, hl.1.2, fun hc => hkl (mem_adj.2 hc.symm)⟩
  · rintro ⟨k, l, hne, h1, h2, h3, h4, h5⟩
    have hk : k ∈ neighbors i A ∩ pa j A := Finset.mem_inter.2 ⟨mem_neighbors.2 h1, mem_pa.2 h3⟩
    have hl : l ∈ neighbors i A ∩ pa j A := Finset.mem_inter.2 ⟨mem_neighbors.2 h2, mem_pa.2 h4⟩
    refine ⟨?_, k, hk, l, Finset.mem_sdiff.2 ⟨hl, by simpa using hne.symm⟩, fun hc => h5 (mem_adj.1 hc).symm⟩
    exact Finset.one_lt_card.2 ⟨k, hk, l, hl, hne⟩

theorem rule4_iff (i j : Fin p) (A : Adj p) : rule4 i j A = true ↔
    ∃ k h, UndEdge A i k ∧ UndEdge A i h ∧ DirEdge A h k ∧ DirEdge A k j ∧ ¬ Adjacent A h j := by
  unfold rule4
  constructor
  · intro hr
    dsimp only at hr
    split at hr
    · split at hr
      · simp only [decide_eq_true_eq] at hr
        obtain ⟨h, hh, hna⟩ := hr
        rw [Finset.mem_inter, mem_neighbors, Finset.mem_biUnion] at hh
        obtain ⟨h1, k, hk, hkh⟩ := hh
        rw [Finset.mem_inter, mem_pa, mem_neighbors] at hk
        rw [mem_pa] at hkh
        exact ⟨k, h, hk.2, h1, hkh, hk.1, fun hc => hna (mem_adj.2 hc.symm)⟩
      · exact absurd hr (by simp)
    · exact absurd hr (by simp)
  · rintro ⟨k, h, h1, h2, h3, h4, h5⟩
    have hk : k ∈ pa j A ∩ neighbors i A := Finset.mem_inter.2 ⟨mem_pa.2 h4, mem_neighbors.2 h1⟩
    have hh : h ∈ neighbors i A ∩ (pa j A ∩ neighbors i A).biUnion (fun k => pa k A) :=
      Finset.mem_inter.2 ⟨mem_neighbors.2 h2, Finset.mem_biUnion.2 ⟨k, hk, mem_pa.2 h3⟩⟩
    dsimp only
    rw [if_pos (Finset.card_pos.2 ⟨k, hk⟩), if_pos (Finset.card_pos.2 ⟨h, hh⟩)]
    simp only [decide_eq_true_eq]
    exact ⟨h, hh, fun hc => h5 (mem_adj.1 hc).symm⟩

theorem anyRule_iff (i j : Fin p) (A : Adj p) : anyRule i j A = true ↔ Forces A i j := by
  unfold anyRule
  simp only [Bool.or_eq_true, rule1_iff, rule2_iff, rule3_iff, rule4_iff]
  constructor
  · rintro (((⟨k, h1, h2⟩ | ⟨k, h1, h2⟩) | ⟨k, l, h, h1, h2, h3, h4, h5⟩) | ⟨k, h, h1, h2, h3, h4, h5⟩)
    · exact .r1 k h1 h2
    · exact .r2 k h1 h2
    · exact .r3 k l h h1 h2 h3 h4 h5
    · exact .r4 k h h1 h2 h3 h4 h5
  · rintro (⟨k, h1, h2⟩ | ⟨k, h1, h2⟩ | ⟨k, l, h, h1, h2, h3, h4, h5⟩ | ⟨k, h, h1, h2, h3, h4, h5⟩)
    · exact Or.inl (Or.inl (Or.inl ⟨k, h1, h2⟩))
    · exact Or.inl (Or.inl (Or.inr ⟨k, h1, h2⟩))
    · exact Or.inl (Or.inr ⟨k, l, h, h1, h2, h3, h4, h5⟩)
    · exact Or.inr ⟨k, h, h1, h2, h3, h4, h5⟩

/-! ### soundness -/

theorem Spec.UndEdge.symm {P : Adj p} {i j : Fin p} (h : UndEdge P i j) : UndEdge P j i := ⟨h.2, h.1⟩

theorem Spec.Adjacent.cases {P : Adj p} {i j : Fin p} (h : Adjacent P i j) : DirEdge P i j ∨ DirEdge P j i ∨ UndEdge P i j := by
  unfold Adjacent at h
  unfold DirEdge UndEdge
  tauto

namespace Spec.IsExtension
variable {H P : Adj p}

theorem vstr (h : IsExtension H P) {a c b : Fin p} (h1 : Edge H a c) (h2 : Edge H b c) (hne : a ≠ b) (hna : ¬ Adjacent P a b) :
    DirEdge P a c ∧ DirEdge P b c := by
  have := (h.2.2.1 a c b).1 ⟨⟨h1, h.1.no_two h1⟩, ⟨h2, h.1.no_two h2⟩, hne, fun hc => hna ((h.2.1 a b).1 hc)⟩
  exact ⟨this.1, this.2.1⟩

theorem noLoops (h : IsExtension H P) : NoLoops P := by
  intro i
  by_contra hc
  rcases (h.2.1 i i).2 (Or.inl hc) with h1 | h1 <;> exact h1 (h.1.noLoops i)

theorem und_ne (h : IsExtension H P) {i j : Fin p} (hU : UndEdge P i j) : i ≠ j := by
  rintro rfl
  exact hU.1 (h.noLoops i)

theorem trans (h : IsExtension H P) {a b c : Fin p} (h1 : Edge H a b) (h2 : Edge H b c) (h3 : Adjacent P a c) : Edge H a c := by
  rcases (h.2.1 a c).2 h3 with h4 | h4
  · exact h4
  · exact absurd (((Relation.TransGen.single h1).tail h2).tail h4) (h.1 a)

/-- the rules are sound -/
theorem forces (h : IsExtension H P) {i j : Fin p} (hU : UndEdge P i j) (hF : Forces P i j) : Edge H i j := by
  by_contra hno
  have hji : Edge H j i := ((h.2.1 i j).2 (Or.inl hU.1)).resolve_left hno
  rcases hF with ⟨k, h1, h2⟩ | ⟨k, h1, h2⟩ | ⟨k, l, hne, h1, h2, h3, h4, h5⟩ | ⟨k, h', h1, h2, h3, h4, h5⟩
  · have hkj : k ≠ j := by rintro rfl; exact hU.1 h1.2
    exact hU.1 (h.vstr (h.2.2.2 k i h1) hji hkj h2).2.2
  · exact h.1 i (((Relation.TransGen.single (h.2.2.2 i k h1)).tail (h.2.2.2 k j h2)).tail hji)
  · have hki := h.trans (h.2.2.2 k j h3) hji (Or.inr h1.1)
    have hli := h.trans (h.2.2.2 l j h4) hji (Or.inr h2.1)
    exact h1.1 (h.vstr hki hli hne h5).1.2
  · have hki := h.trans (h.2.2.2 k j h4) hji (Or.inr h1.1)
    have hhi := h.trans (h.2.2.2 h' k h3) hki (Or.inr h2.1)
    have hne : h' ≠ j := by
      rintro rfl
      exact h3.1 h4.2
    exact h2.1 (h.vstr hhi hji hne h5).1.2

end Spec.IsExtension

/-- `P'` is obtained from `P` by orienting undirected edges -/
structure Refines (P' P : Adj p) : Prop where
  skel : SameSkeleton P' P
  dir : ∀ i j, DirEdge P i j → DirEdge P' i j
  entry : ∀ i j, P' i j = 0 ∨ P' i j = P i j

theorem Refines.refl (P : Adj p) : Refines P P := ⟨fun _ _ => Iff.rfl, fun _ _ h => h, fun _ _ => Or.inr rfl⟩

theorem Refines.trans {P Q R : Adj p} (h : Refines P Q) (h' : Refines Q R) : Refines P R :=
  ⟨fun i j => (h.skel i j).trans (h'.skel i j), fun i j hd => h.dir i j (h'.dir i j hd), fun i j => by
    rcases h.entry i j with h1 | h1
    · exact Or.inl h1
    · rw [h1]; exact h'.entry i j⟩

theorem refines_orient {P : Adj p} {i j : Fin p} (hU : UndEdge P i j) (hne : i ≠ j) : Refines (setEntry P j i 0) P := by
  refine ⟨?_, ?_, ?_⟩
  · intro a b
    unfold Adjacent setEntry
    by_cases h1 : a = j ∧ b = i
    · obtain ⟨rfl, rfl⟩ := h1
      have : ¬ (b = a ∧ a = b) := fun h => hne h.1
      rw [if_pos ⟨rfl, rfl⟩, if_neg this]
      simp [hU.1]
    · by_cases h2 : b = j ∧ a = i
      · obtain ⟨rfl, rfl⟩ := h2
        rw [if_neg h1, if_pos ⟨rfl, rfl⟩]
        simp [hU.1]
      · rw [if_neg h1, if_neg h2]
  · intro a b hab
    unfold DirEdge setEntry
    have h1 : ¬ (a = j ∧ b = i) := by
      rintro ⟨rfl, rfl⟩; exact hU.1 hab.2
    rw [if_neg h1]
    refine ⟨hab.1, ?_⟩
    split
    · rfl
    · exact hab.2
  · intro a b
    unfold setEntry
    split <;> simp

theorem Refines.ext {P' P H : Adj p} (h : Refines P' P) (hH : IsExtension H P) (hdir : ∀ i j, DirEdge P' i j → Edge H i j) :
    IsExtension H P' := by
  refine ⟨hH.1, fun i j => (hH.2.1 i j).trans (h.skel i j).symm, fun i c j => ?_, hdir⟩
  constructor
  · intro hv
    have hv' := (hH.2.2.1 i c j).1 hv
    exact ⟨h.dir _ _ hv'.1, h.dir _ _ hv'.2.1, hv'.2.2.1, fun hc => hv'.2.2.2 ((h.skel i j).1 hc)⟩
  · intro hv
    have e1 := hdir _ _ hv.1
    have e2 := hdir _ _ hv.2.1
    exact ⟨⟨e1, hH.1.no_two e1⟩, ⟨e2, hH.1.no_two e2⟩, hv.2.2.1,
      fun hc => hv.2.2.2 ((h.skel i j).2 ((hH.2.1 i j).1 hc))⟩

theorem Refines.ext_back {P' P D H : Adj p} (h : Refines P' P) (hD : IsExtension D P) (hD' : IsExtension D P')
    (hH : IsExtension H P') : IsExtension H P := by
  refine ⟨hH.1, fun i j => (hH.2.1 i j).trans (h.skel i j), fun i c j => ?_, fun i j hij => hH.2.2.2 i j (h.dir i j hij)⟩
  rw [hH.2.2.1, ← hD'.2.2.1, hD.2.2.1]

theorem dirEdge_setEntry {P : Adj p} {i j a b : Fin p} (h : DirEdge (setEntry P j i 0) a b) : DirEdge P a b ∨ (a = i ∧ b = j) := by
  unfold DirEdge setEntry at h
  by_cases h1 : b = j ∧ a = i
  · exact Or.inr ⟨h1.2, h1.1⟩
  · rw [if_neg h1] at h
    refine Or.inl ⟨?_, h.2⟩
    intro hc
    apply h.1
    split
    · rfl
    · exact hc

theorem orient_ext {P H : Adj p} {i j : Fin p} (hU : UndEdge P i j) (hH : IsExtension H P) (hE : Edge H i j) :
    IsExtension H (setEntry P j i 0) := by
  refine (refines_orient hU (hH.und_ne hU)).ext hH (fun a b hab => ?_)
  rcases dirEdge_setEntry hab with h | ⟨rfl, rfl⟩
  · exact hH.2.2.2 a b h
  · exact hE

/-! ### the loops -/

theorem orientPass_spec (es : List (Fin p × Fin p)) : ∀ (P : Adj p) (flag : Bool), (∃ D, IsExtension D P) → es.Nodup →
    (∀ e ∈ es, UndEdge P e.1 e.2 ∧ e.2 < e.1) →
    Refines (orientPass es P flag).1 P ∧ (∀ H, IsExtension H P → IsExtension H (orientPass es P flag).1) ∧
      (flag = true → (orientPass es P flag).2 = true) ∧
      nnz (orientPass es P flag).1 ≤ nnz P ∧
      ((orientPass es P flag).2 = true → flag = true ∨ nnz (orientPass es P flag).1 < nnz P) ∧
      ((orientPass es P flag).2 = false → (orientPass es P flag).1 = P ∧
        ∀ e ∈ es, ¬ Forces P e.1 e.2 ∧ ¬ Forces P e.2 e.1) := by
  induction es with
  | nil =>
    intro P flag _ _ _
    refine ⟨Refines.refl P, fun H h => h, fun h => h, le_refl _, fun h => Or.inl h, fun _ => ⟨rfl, by simp⟩⟩
  | cons e es ih =>
    obtain ⟨i, j⟩ := e
    intro P flag hD hnd hall
    obtain ⟨D, hD⟩ := hD
    have hU : UndEdge P i j := (hall (i, j) (by simp)).1
    have hlt : j < i := (hall (i, j) (by simp)).2
    have hnd' := List.nodup_cons.1 hnd
    -- one orientation step
    have step : ∀ x y, (x = i ∧ y = j ∨ x = j ∧ y = i) → Forces P x y → anyRule i j P = true ∨ anyRule j i P = true →
        orientPass ((i, j) :: es) P flag = orientPass es (setEntry P y x 0) true →
        Refines (orientPass ((i, j) :: es) P flag).1 P ∧ (∀ H, IsExtension H P → IsExtension H (orientPass ((i, j) :: es) P flag).1) ∧
      (flag = true → (orientPass ((i, j) :: es) P flag).2 = true) ∧
      nnz (orientPass ((i, j) :: es) P flag).1 ≤ nnz P ∧
      ((orientPass ((i, j) :: es) P flag).2 = true → flag = true ∨ nnz (orientPass ((i, j) :: es) P flag).1 < nnz P) ∧
      ((orientPass ((i, j) :: es) P flag).2 = false → (orientPass ((i, j) :: es) P flag).1 = P ∧
        ∀ e ∈ (i, j) :: es, ¬ Forces P e.1 e.2 ∧ ¬ Forces P e.2 e.1) := by
      intro x y hxy hF _ heq
      have hUxy : UndEdge P x y := by
        rcases hxy with ⟨rfl, rfl⟩ | ⟨rfl, rfl⟩
        · exact hU
        · exact hU.symm
      have hsub : ∀ H, IsExtension H P → IsExtension H (setEntry P y x 0) :=
        fun H hH => orient_ext hUxy hH (hH.forces hUxy hF)
      have hrest : ∀ e ∈ es, UndEdge (setEntry P y x 0) e.1 e.2 ∧ e.2 < e.1 := by
        rintro ⟨a, b⟩ he
        obtain ⟨h1, h2⟩ := hall (a, b) (by simp [he])
        have hne : ¬ (a = i ∧ b = j) := by
          rintro ⟨rfl, rfl⟩; exact hnd'.1 he
        dsimp only at h1 h2 ⊢
        refine ⟨?_, h2⟩
        unfold UndEdge setEntry
        rw [if_neg, if_neg]
        · exact h1
        · rintro ⟨rfl, rfl⟩
          rcases hxy with ⟨rfl, rfl⟩ | ⟨rfl, rfl⟩
          · exact hne ⟨rfl, rfl⟩
          · exact absurd hlt (lt_asymm h2)
        · rintro ⟨rfl, rfl⟩
          rcases hxy with ⟨rfl, rfl⟩ | ⟨rfl, rfl⟩
          · exact absurd hlt (lt_asymm h2)
          · exact hne ⟨rfl, rfl⟩
      obtain ⟨c1, c2, c3, c4, c5, c6⟩ := ih (setEntry P y x 0) true ⟨D, hsub D hD⟩ hnd'.2 hrest
      have hnnz := nnz_setEntry_zero (A := P) (i := y) (j := x) hUxy.2
      rw [heq]
      refine ⟨c1.trans (refines_orient hUxy (hD.und_ne hUxy)), fun H hH => c2 H (hsub H hH), fun _ => c3 rfl, by omega,
        fun _ => Or.inr (by omega), fun hf => ?_⟩
      rw [c3 rfl] at hf
      exact absurd hf (by simp)
    by_cases h1 : anyRule i j P = true
    · exact step i j (Or.inl ⟨rfl, rfl⟩) ((anyRule_iff i j P).1 h1) (Or.inl h1) (by rw [orientPass, if_pos h1])
    · by_cases h2 : anyRule j i P = true
      · exact step j i (Or.inr ⟨rfl, rfl⟩) ((anyRule_iff j i P).1 h2) (Or.inr h2) (by rw [orientPass, if_neg h1, if_pos h2])
      · rw [orientPass, if_neg h1, if_neg h2]
        obtain ⟨c1, c2, c3, c4, c5, c6⟩ := ih P flag ⟨D, hD⟩ hnd'.2 (fun e he => hall e (by simp [he]))
        refine ⟨c1, c2, c3, c4, c5, fun hf => ?_⟩
        obtain ⟨c7, c8⟩ := c6 hf
        refine ⟨c7, fun e he => ?_⟩
        rcases List.mem_cons.1 he with rfl | he
        · exact ⟨fun hc => h1 ((anyRule_iff _ _ _).2 hc), fun hc => h2 ((anyRule_iff _ _ _).2 hc)⟩
        · exact c8 e he

theorem mem_undirectedEdges {P : Adj p} {e : Fin p × Fin p} : e ∈ undirectedEdges P ↔ UndEdge P e.1 e.2 ∧ e.2 < e.1 := by
  simp only [undirectedEdges, List.mem_filter, mem_wherePairs, decide_eq_true_eq, gt_iff_lt]
  exact and_congr_left (fun _ => onlyUndirected_ne)

theorem orientLoop_spec (n : Nat) : ∀ P : Adj p, (∃ D, IsExtension D P) → nnz P < n →
    ∃ P', orientLoop n P = .ok P' ∧ Refines P' P ∧ (∀ H, IsExtension H P → IsExtension H P') ∧ MeekClosed P' := by
  induction n with
  | zero => intro P _ h; omega
  | succ n ih =>
    intro P hD hn
    obtain ⟨D, hD⟩ := hD
    obtain ⟨c1, c2, _, _, c5, c6⟩ := orientPass_spec (undirectedEdges P) P false ⟨D, hD⟩
      (nodup_wherePairs.filter _) (fun e he => mem_undirectedEdges.1 he)
    rw [orientLoop]
    cases hpass : orientPass (undirectedEdges P) P false with
    | mk P1 fl =>
      rw [hpass] at c1 c2 c5 c6
      dsimp only at c1 c2 c5 c6
      cases fl with
      | true =>
        dsimp only
        rcases c5 rfl with h | h
        · exact absurd h (by simp)
        · obtain ⟨P', e1, e2, e3, e4⟩ := ih P1 ⟨D, c2 D hD⟩ (by omega)
          exact ⟨P', e1, e2.trans c1, fun H hH => e3 H (c2 H hH), e4⟩
      | false =>
        dsimp only
        obtain ⟨c7, c8⟩ := c6 rfl
        refine ⟨P1, rfl, c1, c2, ?_⟩
        rw [c7]
        intro i j hU
        rcases lt_trichotomy i j with h | h | h
        · exact (c8 (j, i) (mem_undirectedEdges.2 ⟨hU.symm, h⟩)).2
        · exact absurd h (hD.und_ne hU)
        · exact (c8 (i, j) (mem_undirectedEdges.2 ⟨hU, h⟩)).1

theorem maximallyOrient_spec {P : Adj p} (hD : ∃ D, IsExtension D P) :
    ∃ P', maximallyOrient P = .ok P' ∧ Refines P' P ∧ MeekClosed P' ∧ ∀ H, IsExtension H P' ↔ IsExtension H P := by
  obtain ⟨D, hD⟩ := hD
  obtain ⟨G, hG⟩ := (pdagToDag_spec P hD.noLoops).2.1 ⟨D, hD⟩
  obtain ⟨P', h1, h2, h3, h4⟩ := orientLoop_spec (p * p + 1) P ⟨D, hD⟩ (by have := nnz_le P; omega)
  refine ⟨P', ?_, h2, h4, fun H => ⟨fun hH => h2.ext_back hD (h3 D hD) hH, h3 H⟩⟩
  unfold maximallyOrient
  rw [hG]
  exact h1

theorem maximallyOrient_error {P : Adj p} (hl : NoLoops P) :
    maximallyOrient P = .error .valueError ↔ ¬ ∃ D, IsExtension D P := by
  constructor
  · intro h hD
    obtain ⟨P', h1, _⟩ := maximallyOrient_spec hD
    rw [h] at h1
    exact absurd h1 (by simp)
  · intro h
    unfold maximallyOrient
    obtain ⟨h1, _, h3⟩ := pdagToDag_spec P hl
    rcases h3 with ⟨G, hG⟩ | h3
    · exact absurd ⟨G, (h1 G hG).1⟩ h
    · rw [h3]

/-! ### completeness -/

theorem Spec.IsExtension.congr {G H P : Adj p} (h : IsExtension G P) (he : ∀ i j, Edge G i j ↔ Edge H i j) : IsExtension H P := by
  have hm := markovEquiv_of_edges he
  refine ⟨acyclic_congr he h.1, fun i j => (hm.1 i j).symm.trans (h.2.1 i j), fun i c j => (hm.2 i c j).symm.trans (h.2.2.1 i c j),
    fun i j hij => (he i j).1 (h.2.2.2 i j hij)⟩

/-- in a closed PDAG with extension `G` every compelled edge is directed -/
theorem Labelling.compelled_closed {G P L : Adj p} {pos : Fin p → Nat} (h : Labelling G pos L) (hG : IsExtension G P)
    (hcl : MeekClosed P) : ∀ n, ∀ y, pos y = n → ∀ u, L u y = 1 → DirEdge P u y := by
  intro n
  induction n using Nat.strong_induction_on with
  | _ n ih =>
    intro y hn u hu
    obtain ⟨v, hv1, hv2, hv3, hv4⟩ := h.source n y hn
    have hsk : ∀ {a b}, Adjacent G a b ↔ Adjacent P a b := fun {a b} => hG.2.1 a b
    -- an edge of G is directed the same way, or undirected, in P
    have hPe : ∀ {a b}, Edge G a b → DirEdge P a b ∨ UndEdge P a b := by
      intro a b hab
      rcases (hsk.1 (show Adjacent G a b from Or.inl hab)).cases with h1 | h1 | h1
      · exact Or.inl h1
      · exact absurd (h.acyclic.no_two (hG.2.2.2 b a h1)) hab
      · exact Or.inr h1
    have hpay : ∀ {w}, Edge G w v → Edge G w y := fun hw => h.edge_of_com ((hv2 _).2 hw)
    have huv : Edge G u v := (hv2 u).1 hu
    have huy : Edge G u y := hpay huv
    rcases hv4 with hnone | ⟨x, hx, hcase⟩
    · exact absurd huv (hnone u)
    · have hxv := hx.1
      have hxy := hpay hxv
      have hux_adj : UndEdge P u y → u ≠ x → Adjacent P u x := by
        intro hn1 hn2
        by_contra hna
        exact hn1.2 (hG.vstr huy hxy hn2 hna).1.2
      have hux_dir : u ≠ x → Adjacent P u x → Edge G u x := by
        intro hne hadj
        rcases hsk.2 hadj with h1 | h1
        · exact h1
        · have h2 := h.topo x u h1
          have h3 := hx.2 u huv
          omega
      rcases hPe huy with hdone | hU
      · exact hdone
      exfalso
      rcases hcase with ⟨w, hw, hwv⟩ | ⟨z, hz, hzx, hznx⟩
      · have hwx := h.edge_of_com hw
        have hwx' := h.topo w x hwx
        have hposx : pos x < pos v := h.topo x v hxv
        have hwy : ¬ Adjacent P w y := by
          rw [← hsk]
          rintro (h1 | h1)
          · rcases hv3 w h1 with h2 | h2
            · exact hwv h2
            · omega
          · have := h.topo y w h1; omega
        have hwxP : DirEdge P w x := ih (pos x) (by have := h.topo x y hxy; omega) x rfl w hw
        have hxyP : DirEdge P x y := by
          rcases hPe hxy with h1 | h1
          · exact h1
          · exact absurd (Forces.r1 w hwxP hwy) (hcl x y h1)
        have hux : u ≠ x := by
          rintro rfl; exact hU.2 hxyP.2
        have hadj := hux_adj hU hux
        have hEux := hux_dir hux hadj
        rcases hPe hEux with h1 | h1
        · exact hcl u y hU (Forces.r2 x h1 hxyP)
        · have hwu : Adjacent P w u := by
            by_contra hna
            have hne : w ≠ u := by
              rintro rfl
              exact hwy (hsk.1 (Or.inl huy))
            exact h1.2 (hG.vstr hwx hEux hne hna).2.2
          rcases hwu.cases with h2 | h2 | h2
          · exact hcl u y hU (Forces.r1 w h2 hwy)
          · exact hcl u x h1 (Forces.r2 w h2 hwxP)
          · exact hcl u y hU (Forces.r4 x w h1 h2.symm hwxP hxyP hwy)
      · have hzy := hpay hz
        have hzxna : ¬ Adjacent P z x := by
          rw [← hsk]
          rintro (h1 | h1)
          · exact hznx h1
          · have h2 := h.topo x z h1
            have h3 := hx.2 z hz
            omega
        obtain ⟨hzyP, hxyP⟩ := hG.vstr hzy hxy hzx hzxna
        have hux : u ≠ x := by rintro rfl; exact hU.2 hxyP.2
        have huz : u ≠ z := by rintro rfl; exact hU.2 hzyP.2
        have hadj := hux_adj hU hux
        have hEux := hux_dir hux hadj
        have hadjz : Adjacent P u z := by
          by_contra hna
          exact hU.2 (hG.vstr huy hzy huz hna).1.2
        rcases hPe hEux with h1 | h1
        · exact hcl u y hU (Forces.r2 x h1 hxyP)
        · rcases hadjz.cases with h2 | h2 | h2
          · exact hcl u y hU (Forces.r2 z h2 hzyP)
          · exact hcl u x h1 (Forces.r1 z h2 hzxna)
          · exact hcl u y hU (Forces.r3 x z hzx.symm h1 h2 hxyP hzyP (fun hc => hzxna hc.symm))

/-- Meek's completeness theorem: in a rule-closed PDAG with a consistent extension, every undirected edge occurs in both
directions among the consistent extensions -/
theorem meek_complete {G P : Adj p} (hG : IsExtension G P) (hcl : MeekClosed P) {a b : Fin p} (hab : UndEdge P a b) :
    ∃ H, ZeroOne H ∧ IsExtension H P ∧ Edge H a b := by
  -- labelling of the 0/1 version of G
  have hG0 := hG.congr (H := support G) (fun i j => edge_support.symm)
  obtain ⟨L, pos, _, hL⟩ := dagToCpdag_labelling (SetIter.incr p) (support_zeroOne G).nonneg hG0.1
  generalize support G = G' at *
  clear hG G
  have hsk : ∀ {a b}, Adjacent G' a b ↔ Adjacent P a b := fun {a b} => hG0.2.1 a b
  have hsplit := hL.chainSplit
  let R : Fin p → Fin p → Prop := fun a b => L a b = -1
  let D : Fin p → Fin p → Prop := fun a b => DirEdge P a b ∧ L a b = -1
  let U : Fin p → Fin p → Prop := fun a b => UndEdge P a b
  obtain ⟨r, hrinj, hr⟩ := hG0.1.exists_inj_rank
  have hperf := hsplit.perfect hrinj hr
  have hUfree : ∀ a b, U a b → free R a b := by
    intro a b hU
    rcases hsk.2 (show Adjacent P a b from Or.inl hU.1) with h1 | h1
    · rcases hL.vals a b h1 with h2 | h2
      · exact absurd (hL.compelled_closed hG0 hcl _ b rfl a h2).2 hU.2
      · exact Or.inl h2
    · rcases hL.vals b a h1 with h2 | h2
      · exact absurd (hL.compelled_closed hG0 hcl _ a rfl b h2).2 hU.1
      · exact Or.inr h2
  have hAfree : ∀ a b, MeekAbs.A D U a b ↔ free R a b := by
    intro a b
    constructor
    · rintro (h1 | h1 | h1)
      · exact Or.inl h1.2
      · exact Or.inr h1.2
      · exact hUfree a b h1
    · have key : ∀ a b, L a b = -1 → D a b ∨ U a b := by
        intro a b h1
        have he := hL.edge_of_rev h1
        rcases (hsk.1 (show Adjacent G' a b from Or.inl he)).cases with h2 | h2 | h2
        · exact Or.inl ⟨h2, h1⟩
        · exact absurd (hG0.1.no_two (hG0.2.2.2 b a h2)) he
        · exact Or.inr h2
      rintro (h1 | h1)
      · rcases key a b h1 with h2 | h2
        · exact Or.inl h2
        · exact Or.inr (Or.inr h2)
      · rcases key b a h1 with h2 | h2
        · exact Or.inr (Or.inl h2)
        · exact Or.inr (Or.inr h2.symm)
  have hfree_trans : ∀ a b c, free R a b → free R b c → Adjacent P a c → free R a c := by
    intro a b c h1 h2 h3
    rcases hsk.2 h3 with h4 | h4
    · by_contra hn
      have hn' : ¬ R a c := fun hc => hn (Or.inl hc)
      have h5 := hsplit.push a c b h4 hn' h2.symm
      rcases h1 with h6 | h6
      · exact h5.2 h6
      · exact hG0.1.no_two h5.1 |> fun h7 => hsplit.edge _ _ h6 h7
    · by_contra hn
      have hn' : ¬ R c a := fun hc => hn (Or.inr hc)
      have h5 := hsplit.push c a b h4 hn' h1
      rcases h2 with h6 | h6
      · exact hG0.1.no_two h5.1 |> fun h7 => hsplit.edge _ _ h6 h7
      · exact h5.2 h6
  have hclosed : MeekAbs.Closed D U r := by
    refine ⟨fun a b h => h.symm, fun a h => hG0.und_ne h rfl, fun a b h1 h2 => h2.2 h1.1.2,
      fun a b h1 => hr a b (hG0.2.2.2 a b h1.1), hrinj, ?_, ?_, ?_, ?_⟩
    · intro a b c hac hbc hra hrb hne
      rw [← MeekAbs.A, hAfree]
      exact hperf.clique a (by simp) b (by simp) c (by simp) ((hAfree a c).1 hac) ((hAfree b c).1 hbc) hra hrb hne
    · intro k i j h1 h2
      rw [← MeekAbs.A, hAfree]
      have : Adjacent P k j := by
        by_contra hc
        exact hcl i j h2 (Forces.r1 k h1.1 hc)
      exact hfree_trans k i j (Or.inl h1.2) (hUfree i j h2) this
    · intro i k j h1 h2 h3
      exact hcl i j h3 (Forces.r2 k h1.1 h2.1)
    · intro i j k h h1 h2 h3 h4 h5
      rw [← MeekAbs.A, hAfree]
      have : Adjacent P h j := by
        by_contra hc
        exact hcl i j h5 (Forces.r4 k h h1 h2 h3.1 h4.1 hc)
      exact hfree_trans h k j (Or.inl h3.2) (Or.inl h4.2) this
  obtain ⟨r', ho, hlt⟩ := hclosed.complete p Finset.univ (by simp) a (by simp) b (by simp) hab
  have hP' : Chordal.Perfect (free R) Finset.univ r' :=
    ⟨ho.perfect.inj, fun a ha b hb c hc h1 h2 h3 h4 h5 => (hAfree a b).1
      (ho.perfect.clique a ha b hb c hc ((hAfree a c).2 h1) ((hAfree b c).2 h2) h3 h4 h5)⟩
  obtain ⟨H, g1, g2, g3, g4, g5⟩ := hsplit.combine hP'
  refine ⟨H, g1, ⟨g2, fun i j => (g3.1 i j).symm.trans (hG0.2.1 i j), fun i c j => (g3.2 i c j).symm.trans (hG0.2.2.1 i c j), ?_⟩,
    g5 a b (hUfree a b hab) hlt⟩
  intro i j hij
  by_cases hR : R i j
  · exact g5 i j (Or.inl hR) (ho.dir i (by simp) j (by simp) ⟨hij, hR⟩)
  · exact g4 i j (hG0.2.2.2 i j hij) hR

end Verif
