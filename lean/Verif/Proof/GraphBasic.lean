import Verif.Proof.Topo

/-! Helper lemmas on the elementary graph functions. -/

namespace Verif
open Spec
variable {p : Nat}

theorem Spec.Acyclic.mono {A B : Adj p} (hB : Acyclic B) (h : ∀ i j, Edge A i j → Edge B i j) : Acyclic A :=
  fun i hi => hB i (Relation.TransGen.mono (fun a b hab => h a b hab) i i hi)

theorem mem_combinations2_of {α : Type} {l : List α} {x y : α} (h : (x, y) ∈ combinations2 l) :
    x ∈ l ∧ y ∈ l := by
  induction l with
  | nil => simp [combinations2] at h
  | cons a l ih =>
    simp only [combinations2, List.mem_append, List.mem_map, Prod.mk.injEq] at h
    rcases h with ⟨b, hb, rfl, rfl⟩ | h
    · simp [hb]
    · simp [ih h]

theorem ne_of_mem_combinations2 {α : Type} {l : List α} (hnd : l.Nodup) {x y : α} (h : (x, y) ∈ combinations2 l) :
    x ≠ y := by
  induction l with
  | nil => simp [combinations2] at h
  | cons a l ih =>
    rw [List.nodup_cons] at hnd
    simp only [combinations2, List.mem_append, List.mem_map, Prod.mk.injEq] at h
    rcases h with ⟨b, hb, rfl, rfl⟩ | h
    · exact fun h => hnd.1 (h ▸ hb)
    · exact ih hnd.2 h

theorem combinations2_complete {α : Type} {l : List α} {x y : α} (hx : x ∈ l) (hy : y ∈ l) (hne : x ≠ y) :
    (x, y) ∈ combinations2 l ∨ (y, x) ∈ combinations2 l := by
  induction l with
  | nil => simp at hx
  | cons a l ih =>
    simp only [combinations2, List.mem_append, List.mem_map, Prod.mk.injEq]
    rw [List.mem_cons] at hx hy
    rcases hx with rfl | hx
    · rcases hy with rfl | hy
      · exact absurd rfl hne
      · left; left; exact ⟨y, hy, rfl, rfl⟩
    · rcases hy with rfl | hy
      · right; left; exact ⟨x, hx, rfl, rfl⟩
      · rcases ih hx hy with h | h
        · left; right; exact h
        · right; right; exact h

theorem mem_vstructures (it : SetIter p) (A : Adj p) (i c j : Fin p) :
    (i, c, j) ∈ vstructures it A ↔ i < j ∧ VStructure A i c j := by
  unfold vstructures
  simp only [List.mem_toFinset, List.mem_flatMap, List.mem_filterMap, mem_whereVec, decide_eq_true_eq]
  unfold VStructure DirEdge Adjacent
  constructor
  · rintro ⟨c', hc', ⟨x, y⟩, hxy, hr⟩
    have hm := mem_combinations2_of hxy
    have hne := ne_of_mem_combinations2 (it.nodup _) hxy
    rw [it.mem, it.mem, mem_pa, mem_pa] at hm
    dsimp only at hr
    split at hr
    · rename_i h0
      rw [Option.some_inj] at hr
      split at hr
      · rename_i hlt
        simp only [Prod.mk.injEq] at hr
        obtain ⟨rfl, rfl, rfl⟩ := hr
        exact ⟨hlt, hm.1, hm.2, hne, by simp [h0]⟩
      · rename_i hlt
        simp only [Prod.mk.injEq] at hr
        obtain ⟨rfl, rfl, rfl⟩ := hr
        exact ⟨lt_of_le_of_ne (not_lt.1 hlt) hne.symm, hm.2, hm.1, hne.symm, by simp [h0]⟩
    · cases hr
  · rintro ⟨hlt, h1, h2, hne, hna⟩
    push Not at hna
    refine ⟨c, ?_, ?_⟩
    · rw [gt_iff_lt, Finset.one_lt_card]
      exact ⟨i, by simp [onlyDirected_ne, h1], j, by simp [onlyDirected_ne, h2], hne⟩
    · have hi : i ∈ it.toList (pa c A) := by rw [it.mem, mem_pa]; exact h1
      have hj : j ∈ it.toList (pa c A) := by rw [it.mem, mem_pa]; exact h2
      rcases combinations2_complete hi hj hne with h | h
      · exact ⟨(i, j), h, by simp [hna, hlt]⟩
      · exact ⟨(j, i), h, by simp [hna, not_lt_of_gt hlt]⟩

theorem skeleton_ne {A : Adj p} (hA : Nonneg A) {i j : Fin p} : skeleton A i j ≠ 0 ↔ Adjacent A i j := by
  unfold skeleton Adjacent
  have h1 := hA i j
  have h2 := hA j i
  split
  · rename_i h
    simp only [ne_eq, one_ne_zero, not_false_eq_true, true_iff]
    omega
  · rename_i h
    simp only [ne_eq, not_true_eq_false, false_iff]
    omega

theorem skeleton_zeroOne (A : Adj p) (i j : Fin p) : skeleton A i j = 0 ∨ skeleton A i j = 1 := by
  unfold skeleton; split <;> simp

theorem skeleton_eq_iff {A B : Adj p} (hA : Nonneg A) (hB : Nonneg B) :
    (∀ i j, skeleton A i j = skeleton B i j) ↔ SameSkeleton A B := by
  unfold SameSkeleton
  refine forall_congr' fun i => forall_congr' fun j => ?_
  rw [← skeleton_ne hA, ← skeleton_ne hB]
  rcases skeleton_zeroOne A i j with h | h <;> rcases skeleton_zeroOne B i j with h' | h' <;> simp [h, h']

theorem Spec.VStructure.symm {A : Adj p} {i c j : Fin p} (h : VStructure A i c j) : VStructure A j c i :=
  ⟨h.2.1, h.1, h.2.2.1.symm, fun hc => h.2.2.2 hc.symm⟩

theorem vstructures_eq_iff (it : SetIter p) (A B : Adj p) :
    vstructures it A = vstructures it B ↔ SameVStructures A B := by
  constructor
  · intro h i c j
    rcases lt_trichotomy i j with hl | rfl | hl
    · have h1 := mem_vstructures it A i c j
      rw [h, mem_vstructures] at h1
      constructor
      · intro hv; exact (h1.2 ⟨hl, hv⟩).2
      · intro hv; exact (h1.1 ⟨hl, hv⟩).2
    · constructor <;> intro hv <;> exact absurd rfl hv.2.2.1
    · have h1 := mem_vstructures it A j c i
      rw [h, mem_vstructures] at h1
      constructor
      · intro hv; exact VStructure.symm (h1.2 ⟨hl, VStructure.symm hv⟩).2
      · intro hv; exact VStructure.symm (h1.1 ⟨hl, VStructure.symm hv⟩).2
  · intro h
    ext ⟨i, c, j⟩
    rw [mem_vstructures, mem_vstructures, h i c j]

/-- counting criterion behind `is_clique` / `is_complete` -/
theorem card_pairs_eq_iff {α : Type} [DecidableEq α] (S : Finset α) (r : α → α → Prop) [DecidableRel r]
    (hirr : ∀ a ∈ S, ¬ r a a) :
    ((S ×ˢ S).filter (fun e => r e.1 e.2)).card = S.card * (S.card - 1) ↔
      ∀ a ∈ S, ∀ b ∈ S, a ≠ b → r a b := by
  have hsub : (S ×ˢ S).filter (fun e => r e.1 e.2) ⊆ S.offDiag := by
    intro ⟨a, b⟩ h
    simp only [Finset.mem_filter, Finset.mem_product] at h
    rw [Finset.mem_offDiag]
    exact ⟨h.1.1, h.1.2, fun hab => hirr a h.1.1 (by have := h.2; dsimp at hab this; rw [← hab] at this; exact this)⟩
  have hcard : S.offDiag.card = S.card * (S.card - 1) := by
    rw [Finset.offDiag_card, Nat.mul_sub, mul_one]
  rw [← hcard]
  constructor
  · intro h a ha b hb hab
    have := Finset.eq_of_subset_of_card_le hsub (le_of_eq h.symm)
    have hm : (a, b) ∈ S.offDiag := by rw [Finset.mem_offDiag]; exact ⟨ha, hb, hab⟩
    rw [← this] at hm
    exact (Finset.mem_filter.1 hm).2
  · intro h
    congr 1
    apply Finset.Subset.antisymm hsub
    intro ⟨a, b⟩ hm
    rw [Finset.mem_offDiag] at hm
    rw [Finset.mem_filter, Finset.mem_product]
    exact ⟨⟨hm.1, hm.2.1⟩, h a hm.1 b hm.2.1 hm.2.2⟩

end Verif
