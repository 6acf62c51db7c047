import Verif.Proof.Rank
import Verif.Model.Pdag

namespace Verif
open Spec
variable {p : Nat}

/-- removing a node from a graph -/
def dropNode {n : Nat} (i : Fin (n + 1)) (P : Adj (n + 1)) : Adj n := fun a b => P (i.succAbove a) (i.succAbove b)

theorem vstructure_dropNode {n : Nat} (i : Fin (n + 1)) (P : Adj (n + 1)) (x c y : Fin n) :
    VStructure (dropNode i P) x c y ↔ VStructure P (i.succAbove x) (i.succAbove c) (i.succAbove y) := by
  unfold VStructure DirEdge Adjacent dropNode
  simp

theorem Spec.IsExtension.dropNode {n : Nat} {G P : Adj (n + 1)} (h : IsExtension G P) (i : Fin (n + 1)) :
    IsExtension (dropNode i G) (dropNode i P) := by
  obtain ⟨h1, h2, h3, h4⟩ := h
  refine ⟨?_, ?_, ?_, ?_⟩
  · obtain ⟨f, hf⟩ := h1.exists_rank
    exact acyclic_of_rank (fun a => f (i.succAbove a)) fun a b hab => hf _ _ hab
  · exact fun a b => h2 _ _
  · intro x c y
    rw [vstructure_dropNode, vstructure_dropNode]; exact h3 _ _ _
  · exact fun a b hab => h4 _ _ hab

theorem isCandidate_iff {n : Nat} (P : Adj n) (i : Fin n) : isCandidate P i = true ↔
    (∀ j, ¬ DirEdge P i j) ∧ ∀ y, UndEdge P i y → ∀ a, Adjacent P i a → a ≠ y → Adjacent P y a := by
  unfold isCandidate
  rw [Bool.and_eq_true, decide_eq_true_iff, decide_eq_true_iff, Finset.card_eq_zero, Finset.eq_empty_iff_forall_notMem]
  refine and_congr ?_ ?_
  · exact forall_congr' fun j => by rw [mem_ch]; exact Iff.rfl
  · constructor
    · intro h y hy a ha hne
      have := h y (by rw [mem_neighbors]; exact hy) (show a ∈ adj i P \ {y} by
        rw [Finset.mem_sdiff, mem_adj, Finset.mem_singleton]; exact ⟨ha, hne⟩)
      rw [mem_adj] at this; exact this
    · intro h y hy a ha
      rw [Finset.mem_sdiff, mem_adj, Finset.mem_singleton] at ha
      rw [mem_neighbors] at hy
      rw [mem_adj]
      exact h y hy a ha.1 ha.2

/-- any sink of a consistent extension is a candidate -/
theorem candidate_of_extension {n : Nat} {G P : Adj n} (h : IsExtension G P) {i : Fin n} (hi : ∀ j, G i j = 0) :
    isCandidate P i = true := by
  obtain ⟨h1, h2, h3, h4⟩ := h
  rw [isCandidate_iff]
  refine ⟨fun j hj => h4 i j hj (hi j), ?_⟩
  intro y hy a ha hne
  have hin : ∀ b, Adjacent P i b → G b i ≠ 0 := by
    intro b hb
    rcases (h2 i b).2 hb with h | h
    · exact absurd (hi b) h
    · exact h
  by_contra hna
  have hv : VStructure G y i a := by
    refine ⟨⟨hin y (Or.inl hy.1), hi y⟩, ⟨hin a ha, hi a⟩, Ne.symm hne, ?_⟩
    rw [h2]; exact hna
  rw [h3] at hv
  exact hy.1 hv.1.2

/-- add node `i` as a sink below all its neighbours in `P` -/
def addSink {n : Nat} (i : Fin (n + 1)) (P : Adj (n + 1)) (D : Adj n) : Adj (n + 1) :=
  i.insertNth (fun _ => 0)
    (fun a => i.insertNth (α := fun _ => Int) (if Adjacent P (i.succAbove a) i then 1 else 0) (D a))

section
variable {n : Nat} (i : Fin (n + 1)) (P : Adj (n + 1)) (D : Adj n)

theorem addSink_row (b : Fin (n + 1)) : addSink i P D i b = 0 := by
  unfold addSink; rw [Fin.insertNth_apply_same]

theorem addSink_col (a : Fin n) :
    addSink i P D (i.succAbove a) i = if Adjacent P (i.succAbove a) i then 1 else 0 := by
  unfold addSink; rw [Fin.insertNth_apply_succAbove, Fin.insertNth_apply_same]

theorem addSink_sub (a b : Fin n) : addSink i P D (i.succAbove a) (i.succAbove b) = D a b := by
  unfold addSink; rw [Fin.insertNth_apply_succAbove, Fin.insertNth_apply_succAbove]
end

theorem forall_fin_succAbove {n : Nat} (i : Fin (n + 1)) {q : Fin (n + 1) → Prop} :
    (∀ x, q x) ↔ q i ∧ ∀ a, q (i.succAbove a) := by
  constructor
  · exact fun h => ⟨h i, fun a => h _⟩
  · rintro ⟨h1, h2⟩ x
    rcases Fin.eq_self_or_eq_succAbove i x with rfl | ⟨a, rfl⟩
    · exact h1
    · exact h2 a

theorem addSink_extension {n : Nat} {i : Fin (n + 1)} {P : Adj (n + 1)} {D : Adj n} (hl : NoLoops P)
    (hc : isCandidate P i = true) (hD : IsExtension D (dropNode i P)) : IsExtension (addSink i P D) P := by
  rw [isCandidate_iff] at hc
  obtain ⟨hc1, hc2⟩ := hc
  obtain ⟨h1, h2, h3, h4⟩ := hD
  have hskel : SameSkeleton (addSink i P D) P := by
    unfold SameSkeleton
    rw [forall_fin_succAbove i]
    constructor
    · rw [forall_fin_succAbove i]
      constructor
      · unfold Adjacent; rw [addSink_row, hl i]
      · intro a
        unfold Adjacent
        rw [addSink_row, addSink_col]
        split
        · rename_i h; unfold Adjacent at h; simp only [ne_eq, not_true_eq_false, one_ne_zero, not_false_eq_true, or_true, true_iff]
          exact h.symm
        · rename_i h; unfold Adjacent at h; simp only [ne_eq, not_true_eq_false, or_self, false_iff]
          exact fun hh => h hh.symm
    · intro a
      rw [forall_fin_succAbove i]
      constructor
      · unfold Adjacent
        rw [addSink_row, addSink_col]
        split
        · rename_i h; unfold Adjacent at h; simpa using h
        · rename_i h; unfold Adjacent at h; simpa using h
      · intro b
        have := h2 a b
        unfold Adjacent dropNode at this
        unfold Adjacent
        rw [addSink_sub, addSink_sub]; exact this
  refine ⟨?_, hskel, ?_, ?_⟩
  · obtain ⟨f, hf⟩ := h1.exists_rank
    refine acyclic_of_rank (i.insertNth (α := fun _ => Nat) (∑ a, f a + 1) f) ?_
    rw [forall_fin_succAbove i]
    constructor
    · intro j hj; exact absurd (addSink_row i P D j) hj
    · intro a
      rw [forall_fin_succAbove i]
      constructor
      · intro _
        rw [Fin.insertNth_apply_succAbove, Fin.insertNth_apply_same]
        have := Finset.single_le_sum (f := f) (fun _ _ => Nat.zero_le _) (Finset.mem_univ a)
        omega
      · intro b hab
        rw [Fin.insertNth_apply_succAbove, Fin.insertNth_apply_succAbove]
        unfold Edge at hab; rw [addSink_sub] at hab
        exact hf _ _ hab
  · intro x c y
    constructor
    · rintro ⟨hx, hy, hne, hna⟩
      rw [hskel] at hna
      have hxi : x ≠ i := fun h => hx.1 (h ▸ addSink_row i P D c)
      have hyi : y ≠ i := fun h => hy.1 (h ▸ addSink_row i P D c)
      rcases Fin.eq_self_or_eq_succAbove i c with rfl | ⟨c, rfl⟩
      · have hax : Adjacent P x c := (hskel x c).1 (Or.inl hx.1)
        have hay : Adjacent P y c := (hskel y c).1 (Or.inl hy.1)
        have dir : ∀ u v, Adjacent P u c → Adjacent P v c → u ≠ v → ¬ Adjacent P u v → DirEdge P u c := by
          intro u v hu hv huv hnuv
          by_cases hcu : P c u = 0
          · rcases hu with h | h
            · exact ⟨h, hcu⟩
            · exact absurd hcu h
          · by_cases huc : P u c = 0
            · exact absurd ⟨hcu, huc⟩ (hc1 u)
            · exact absurd (hc2 u ⟨hcu, huc⟩ v hv.symm huv.symm) hnuv
        exact ⟨dir x y hax hay hne hna, dir y x hay hax hne.symm (fun h => hna h.symm), hne, hna⟩
      · obtain ⟨x, rfl⟩ := (Fin.eq_self_or_eq_succAbove i x).resolve_left hxi
        obtain ⟨y, rfl⟩ := (Fin.eq_self_or_eq_succAbove i y).resolve_left hyi
        rw [← vstructure_dropNode, ← h3]
        unfold DirEdge at hx hy
        rw [addSink_sub, addSink_sub] at hx hy
        rw [← hskel] at hna
        unfold Adjacent at hna
        rw [addSink_sub, addSink_sub] at hna
        exact ⟨hx, hy, fun h => hne (by rw [h]), hna⟩
    · intro hv
      have hv' := hv
      obtain ⟨hx, hy, hne, hna⟩ := hv
      have hxi : x ≠ i := fun h => hc1 c (h ▸ hx)
      have hyi : y ≠ i := fun h => hc1 c (h ▸ hy)
      obtain ⟨x, rfl⟩ := (Fin.eq_self_or_eq_succAbove i x).resolve_left hxi
      obtain ⟨y, rfl⟩ := (Fin.eq_self_or_eq_succAbove i y).resolve_left hyi
      refine ⟨?_, ?_, hne, by rw [hskel]; exact hna⟩
      all_goals
        rcases Fin.eq_self_or_eq_succAbove i c with rfl | ⟨c, rfl⟩
        · unfold DirEdge
          rw [addSink_row, addSink_col, if_pos (show Adjacent P _ _ by first | exact Or.inl hx.1 | exact Or.inl hy.1)]
          exact ⟨one_ne_zero, rfl⟩
        · rw [← vstructure_dropNode, ← h3] at hv'
          unfold DirEdge
          rw [addSink_sub, addSink_sub]
          first | exact hv'.1 | exact hv'.2.1
  · intro a b hab
    have hai : a ≠ i := fun h => hc1 b (h ▸ hab)
    obtain ⟨a, rfl⟩ := (Fin.eq_self_or_eq_succAbove i a).resolve_left hai
    unfold Edge
    rcases Fin.eq_self_or_eq_succAbove i b with rfl | ⟨b, rfl⟩
    · rw [addSink_col, if_pos (show Adjacent P _ _ from Or.inl hab.1)]; exact one_ne_zero
    · rw [addSink_sub]; exact h4 a b hab

theorem findCandidate_some {n : Nat} {P : Adj n} {i : Fin n} (h : findCandidate P = some i) :
    isCandidate P i = true := List.find?_some h

theorem findCandidate_none {n : Nat} {P : Adj n} (h : findCandidate P = none) (i : Fin n) : ¬ isCandidate P i = true := by
  unfold findCandidate at h
  rw [List.find?_eq_none] at h
  exact h i (List.mem_finRange i)

theorem pdagToDagLoop_spec (n : Nat) (P : Adj n) (idx : Fin n → Fin p) (G : Adj p) (hl : NoLoops P)
    (hinj : Function.Injective idx) :
    (∀ G', pdagToDagLoop n P idx G = .ok G' → ∃ D, IsExtension D P ∧
      (∀ a b, (UndEdge P a b ∧ D a b ≠ 0 → G' (idx a) (idx b) = 1) ∧
        (¬ (UndEdge P a b ∧ D a b ≠ 0) → G' (idx a) (idx b) = G (idx a) (idx b))) ∧
      (∀ x y, ((∀ a, idx a ≠ x) ∨ (∀ b, idx b ≠ y)) → G' x y = G x y)) ∧
    ((∃ D, IsExtension D P) → ∃ G', pdagToDagLoop n P idx G = .ok G') ∧
    ((∃ G', pdagToDagLoop n P idx G = .ok G') ∨ pdagToDagLoop n P idx G = .error .valueError) := by
  induction n generalizing G with
  | zero =>
    refine ⟨fun G' h => ?_, fun _ => ⟨G, rfl⟩, Or.inl ⟨G, rfl⟩⟩
    cases h
    refine ⟨P, ⟨fun i => i.elim0, fun i => i.elim0, fun i => i.elim0, fun i => i.elim0⟩, fun a => a.elim0, fun _ _ _ => rfl⟩
  | succ n ih =>
    rw [pdagToDagLoop]
    cases hf : findCandidate P with
    | none =>
      refine ⟨fun G' h => (nomatch h), fun ⟨D, hD⟩ => ?_, Or.inr rfl⟩
      obtain ⟨i, hi⟩ := hD.1.exists_sink
      exact absurd (candidate_of_extension hD hi) (findCandidate_none hf i)
    | some i =>
      have hc := findCandidate_some hf
      have hc1 := ((isCandidate_iff P i).1 hc).1
      have hl' : NoLoops (dropNode i P) := fun a => hl _
      have hinj' : Function.Injective (fun a => idx (i.succAbove a)) := hinj.comp Fin.succAbove_right_injective
      obtain ⟨ih1, ih2, ih3⟩ := ih (dropNode i P) (fun a => idx (i.succAbove a)) (orientInto G P idx i) hl' hinj'
      refine ⟨fun G' h => ?_, fun ⟨D, hD⟩ => ih2 ⟨_, hD.dropNode i⟩, ih3⟩
      obtain ⟨D, hD, hG, hout⟩ := ih1 G' h
      have hin : ∀ a b, G' (idx a) (idx b) =
          if UndEdge P a b ∧ addSink i P D a b ≠ 0 then 1 else G (idx a) (idx b) := by
        rw [forall_fin_succAbove i]
        constructor
        · intro b
          rw [if_neg (fun h => h.2 (addSink_row i P D b))]
          rw [hout _ _ (Or.inl fun a h => Fin.succAbove_ne i a (hinj h))]
          unfold orientInto
          rw [if_neg]
          rintro ⟨hb, j, hj, hij⟩
          rw [hinj hij, mem_neighbors] at hj
          exact hj.1 (hl i)
        · intro a
          rw [forall_fin_succAbove i]
          constructor
          · rw [hout _ _ (Or.inr fun b h => Fin.succAbove_ne i b (hinj h))]
            unfold orientInto
            rw [addSink_col]
            have : (∃ j ∈ neighbors i P, idx j = idx (i.succAbove a)) ↔ UndEdge P (i.succAbove a) i := by
              constructor
              · rintro ⟨j, hj, h⟩
                rw [hinj h, mem_neighbors] at hj
                exact hj.symm
              · intro h; exact ⟨_, by rw [mem_neighbors]; exact h.symm, rfl⟩
            simp only [this, true_and]
            by_cases hu : UndEdge P (i.succAbove a) i
            · rw [if_pos hu, if_pos (by rw [if_pos (show Adjacent P _ _ from Or.inl hu.1)]; exact ⟨hu, one_ne_zero⟩)]
            · rw [if_neg hu, if_neg (fun h => hu h.1)]
          · intro b
            have h1 := hG a b
            have horient : orientInto G P idx i (idx (i.succAbove a)) (idx (i.succAbove b)) =
                G (idx (i.succAbove a)) (idx (i.succAbove b)) := by
              unfold orientInto
              rw [if_neg]
              rintro ⟨h, _⟩
              exact Fin.succAbove_ne i b (hinj h)
            rw [addSink_sub]
            split
            · rename_i h; exact h1.1 h
            · rename_i h; rw [h1.2 h, horient]
      refine ⟨addSink i P D, addSink_extension hl hc hD, fun a b => ⟨fun h => ?_, fun h => ?_⟩, fun x y hxy => ?_⟩
      · rw [hin, if_pos h]
      · rw [hin, if_neg h]
      · rw [hout x y (hxy.imp (fun h a => h _) (fun h a => h _))]
        unfold orientInto
        rw [if_neg]
        rintro ⟨rfl, j, _, rfl⟩
        rcases hxy with h | h
        · exact h j rfl
        · exact h i rfl

/-- everything about `pdag_to_dag` -/
theorem pdagToDag_spec (P : Adj p) (hl : NoLoops P) :
    (∀ G, pdagToDag P = .ok G → IsExtension G P ∧
      ∀ a b, (DirEdge P a b → G a b = P a b) ∧ (UndEdge P a b → G a b = 0 ∨ G a b = 1)) ∧
    ((∃ D, IsExtension D P) → ∃ G', pdagToDag P = .ok G') ∧
    ((∃ G', pdagToDag P = .ok G') ∨ pdagToDag P = .error .valueError) := by
  obtain ⟨h1, h2, h3⟩ := pdagToDagLoop_spec p P id (onlyDirected P) hl Function.injective_id
  refine ⟨fun G hG => ?_, h2, h3⟩
  obtain ⟨D, hD, hin, _⟩ := h1 G hG
  simp only [id_eq] at hin
  have hval : ∀ a b, G a b = if UndEdge P a b ∧ D a b ≠ 0 then 1 else onlyDirected P a b := by
    intro a b
    split
    · rename_i h; exact (hin a b).1 h
    · rename_i h; exact (hin a b).2 h
  have hedge : ∀ a b, G a b ≠ 0 ↔ D a b ≠ 0 := by
    intro a b
    rw [hval]
    constructor
    · intro h
      split at h
      · rename_i h'; exact h'.2
      · rw [onlyDirected_ne] at h; exact hD.2.2.2 a b h
    · intro h
      split
      · exact one_ne_zero
      · rename_i hn
        rw [onlyDirected_ne]
        have hadj := (hD.2.1 a b).1 (Or.inl h)
        by_cases hab : P a b = 0
        · have hba : P b a ≠ 0 := hadj.resolve_left (fun hh => hh hab)
          exact absurd (hD.1.no_two h) (hD.2.2.2 b a ⟨hba, hab⟩)
        · refine ⟨hab, ?_⟩
          by_contra hba
          exact hn ⟨⟨hab, hba⟩, h⟩
  have hz : ∀ a b, G a b = 0 ↔ D a b = 0 := fun a b => not_iff_not.1 (hedge a b)
  refine ⟨⟨hD.1.mono fun a b => (hedge a b).1, ?_, ?_, ?_⟩, ?_⟩
  · intro a b
    rw [← hD.2.1]; unfold Adjacent; rw [hedge, hedge]
  · intro x c y
    rw [← hD.2.2.1]; unfold VStructure DirEdge Adjacent; simp only [hedge, hz]
  · exact fun a b h => (hedge a b).2 (hD.2.2.2 a b h)
  · intro a b
    rw [hval]
    constructor
    · intro h
      rw [if_neg (fun h' => h'.1.2 h.2)]
      unfold onlyDirected
      exact if_pos h
    · intro h
      split
      · exact Or.inr rfl
      · left
        unfold onlyDirected
        rw [if_neg]
        exact fun h' => h.2 h'.2

end Verif
