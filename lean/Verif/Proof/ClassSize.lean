import Verif.Spec.ClassSize
import Verif.Proof.Cpdag
import Verif.Proof.Covered
import Verif.Proof.Faithful
import Mathlib.Data.Fintype.Perm

/-!
# The sizes of equivalence classes
-/

namespace Verif

open Spec

variable {p : Nat}

/-! ### Orders of the variables -/

open Classical in
/-- The edges of the skeleton of `A` directed along the order `σ`. -/
noncomputable def alongOrder (A : Adj p) (σ : Equiv.Perm (Fin p)) : Adj p := fun i j => if Adjacent A i j ∧ σ i < σ j then 1 else 0

theorem exists_order {A : Adj p} (hac : Acyclic A) : ∃ σ : Equiv.Perm (Fin p), ∀ i j, Edge A i j → σ i < σ j := by
  obtain ⟨f, hinj, hf⟩ := hac.exists_inj_rank
  classical
  let c : Fin p → Nat := fun i => (Finset.univ.filter (fun k => f k < f i)).card
  have hc : ∀ i j, f i < f j → c i < c j := by
    intro i j hij
    refine Finset.card_lt_card (Finset.ssubset_iff_of_subset (fun k hk => ?_) |>.2 ⟨i, by simpa using hij, by simp⟩)
    simp only [Finset.mem_filter, Finset.mem_univ, true_and] at hk ⊢
    exact hk.trans hij
  have hlt : ∀ i, c i < p := by
    intro i
    calc c i < (Finset.univ : Finset (Fin p)).card := Finset.card_lt_card (Finset.filter_ssubset.2 ⟨i, by simp, by simp⟩)
      _ = p := by simp
  have hcinj : Function.Injective (fun i : Fin p => (⟨c i, hlt i⟩ : Fin p)) := by
    intro i j hij
    simp only [Fin.mk.injEq] at hij
    rcases lt_trichotomy (f i) (f j) with h | h | h
    · exact absurd hij (hc i j h).ne
    · exact hinj h
    · exact absurd hij (hc j i h).ne'
  refine ⟨Equiv.ofBijective _ (Finite.injective_iff_bijective.1 hcinj), fun i j hij => ?_⟩
  simp only [Equiv.ofBijective_apply, Fin.mk_lt_mk]
  exact hc i j (hf i j hij)

theorem eq_alongOrder {A H : Adj p} (h01 : ZeroOne H) (hs : SameSkeleton A H) {σ : Equiv.Perm (Fin p)} (hσ : ∀ i j, Edge H i j → σ i < σ j) :
    H = alongOrder A σ := by
  funext i j
  unfold alongOrder
  by_cases h : Edge H i j
  · rw [if_pos ⟨(hs i j).2 (Or.inl h), hσ i j h⟩]
    exact (h01 i j).resolve_left h
  · rw [if_neg]
    · unfold Edge at h
      push Not at h
      exact h
    · rintro ⟨h1, h2⟩
      rcases (hs i j).1 h1 with h3 | h3
      · exact h h3
      · exact absurd (hσ j i h3) (not_lt.2 h2.le)

theorem alongOrder_zeroOne (A : Adj p) (σ : Equiv.Perm (Fin p)) : ZeroOne (alongOrder A σ) := by
  intro i j
  unfold alongOrder
  split_ifs <;> simp

theorem edge_alongOrder {A : Adj p} {σ : Equiv.Perm (Fin p)} {i j : Fin p} : Edge (alongOrder A σ) i j ↔ Adjacent A i j ∧ σ i < σ j := by
  unfold Edge alongOrder
  split_ifs with h <;> simp [h]

theorem alongOrder_acyclic (A : Adj p) (σ : Equiv.Perm (Fin p)) : Acyclic (alongOrder A σ) :=
  acyclic_of_rank (fun i => (σ i).val) (fun _ _ h => (edge_alongOrder.1 h).2)

theorem adjacent_comm {A : Adj p} {i j : Fin p} : Adjacent A i j ↔ Adjacent A j i := or_comm

theorem Spec.Acyclic.not_adjacent_self {A : Adj p} (hac : Acyclic A) (i : Fin p) : ¬ Adjacent A i i := by
  rintro (h | h) <;> exact h (hac.noLoops i)

theorem alongOrder_skeleton {A : Adj p} (hac : Acyclic A) (σ : Equiv.Perm (Fin p)) : SameSkeleton A (alongOrder A σ) := by
  intro i j
  show _ ↔ Edge _ i j ∨ Edge _ j i
  rw [edge_alongOrder, edge_alongOrder, adjacent_comm (i := j)]
  constructor
  · intro h
    have hne : i ≠ j := by rintro rfl; exact hac.not_adjacent_self i h
    rcases lt_or_gt_of_ne (σ.injective.ne hne) with h1 | h1
    · exact Or.inl ⟨h, h1⟩
    · exact Or.inr ⟨h, h1⟩
  · rintro (h | h) <;> exact h.1

theorem perm_eq_of_lt {σ τ : Equiv.Perm (Fin p)} (h : ∀ i j, σ i < σ j ↔ τ i < τ j) : σ = τ := by
  have hmono : StrictMono (fun x => τ (σ.symm x)) := by
    intro x y hxy
    refine (h _ _).1 ?_
    simpa using hxy
  have hid : ∀ x, τ (σ.symm x) = x := by
    have := (StrictMono.range_inj hmono strictMono_id).1 (by
      rw [Set.range_id, Set.range_eq_univ]
      exact τ.surjective.comp σ.symm.surjective)
    exact fun x => congrFun this x
  refine Equiv.ext (fun i => ?_)
  have := hid (σ i)
  simpa using this.symm

theorem exists_first_two {i j : Fin p} (hij : i ≠ j) :
    ∃ σ τ : Equiv.Perm (Fin p), σ ≠ τ ∧ ∀ a b, ¬ (a = i ∧ b = j) → ¬ (a = j ∧ b = i) → (σ a < σ b ↔ τ a < τ b) := by
  have hp : 1 < p := by
    have h1 := i.isLt
    have h2 := j.isLt
    have h3 : i.val ≠ j.val := fun h => hij (Fin.ext h)
    omega
  let x : Fin p := ⟨0, by omega⟩
  let y : Fin p := ⟨1, hp⟩
  have hxy : x ≠ y := by simp [x, y]
  let s := Equiv.swap i x
  have hs : s j ≠ x := by
    intro h
    have : s i = x := Equiv.swap_apply_left i x
    exact hij (s.injective (this.trans h.symm))
  let σ : Equiv.Perm (Fin p) := s.trans (Equiv.swap (s j) y)
  have h1 : σ i = x := by
    simp only [σ, Equiv.trans_apply, s, Equiv.swap_apply_left]
    exact Equiv.swap_apply_of_ne_of_ne hs.symm hxy
  have h2 : σ j = y := by
    simp only [σ, Equiv.trans_apply]
    exact Equiv.swap_apply_left _ _
  refine ⟨σ, σ.trans (Equiv.swap x y), ?_, ?_⟩
  · intro h
    have h3 : σ i = Equiv.swap x y (σ i) := Equiv.ext_iff.1 h i
    rw [h1, Equiv.swap_apply_left] at h3
    exact hxy h3
  · intro a b hab hba
    have hlow : ∀ c, c ≠ i → c ≠ j → σ c ≠ x ∧ σ c ≠ y ∧ 1 < (σ c).val := by
      intro c hci hcj
      have h3 : σ c ≠ x := fun h => hci (σ.injective (h.trans h1.symm))
      have h4 : σ c ≠ y := fun h => hcj (σ.injective (h.trans h2.symm))
      refine ⟨h3, h4, ?_⟩
      have h5 : (σ c).val ≠ 0 := fun h => h3 (Fin.ext h)
      have h6 : (σ c).val ≠ 1 := fun h => h4 (Fin.ext h)
      omega
    simp only [Equiv.trans_apply]
    by_cases ha : a = i
    · by_cases hb : b = i
      · simp [ha, hb]
      · have hbj : b ≠ j := fun h => hab ⟨ha, h⟩
        obtain ⟨h3, h4, h5⟩ := hlow b hb hbj
        rw [ha, h1, Equiv.swap_apply_left, Equiv.swap_apply_of_ne_of_ne h3 h4]
        simp only [Fin.lt_def, x, y]
        omega
    · by_cases ha' : a = j
      · by_cases hb : b = j
        · simp [ha', hb]
        · have hbi : b ≠ i := fun h => hba ⟨ha', h⟩
          obtain ⟨h3, h4, h5⟩ := hlow b hbi hb
          rw [ha', h2, Equiv.swap_apply_right, Equiv.swap_apply_of_ne_of_ne h3 h4]
          simp only [Fin.lt_def, x, y]
          omega
      · obtain ⟨h3, h4, h5⟩ := hlow a ha ha'
        rw [Equiv.swap_apply_of_ne_of_ne h3 h4]
        by_cases hb : b = i
        · rw [hb, h1, Equiv.swap_apply_left]
          simp only [Fin.lt_def, x, y]
          omega
        · by_cases hb' : b = j
          · rw [hb', h2, Equiv.swap_apply_right]
            simp only [Fin.lt_def, x, y]
            omega
          · obtain ⟨h6, h7, -⟩ := hlow b hb hb'
            rw [Equiv.swap_apply_of_ne_of_ne h6 h7]

/-! ### The bounds -/

theorem class_le_factorial {A : Adj p} {l : List (Adj p)} (hl : l.Nodup) (hmem : ∀ H, H ∈ l ↔ ZeroOne H ∧ Acyclic H ∧ MarkovEquiv A H) :
    l.length ≤ p.factorial := by
  classical
  have hsub : l.toFinset ⊆ Finset.univ.image (alongOrder A) := by
    intro H hH
    obtain ⟨h1, h2, h3⟩ := (hmem H).1 (List.mem_toFinset.1 hH)
    obtain ⟨σ, hσ⟩ := exists_order h2
    exact Finset.mem_image.2 ⟨σ, Finset.mem_univ _, (eq_alongOrder h1 h3.1 hσ).symm⟩
  rw [← List.toFinset_card_of_nodup hl]
  calc l.toFinset.card ≤ (Finset.univ.image (alongOrder A)).card := Finset.card_le_card hsub
    _ ≤ (Finset.univ : Finset (Equiv.Perm (Fin p))).card := Finset.card_image_le
    _ = p.factorial := by rw [Finset.card_univ, Fintype.card_perm, Fintype.card_fin]

theorem class_eq_factorial_iff {A : Adj p} (hac : Acyclic A) {l : List (Adj p)} (hl : l.Nodup)
    (hmem : ∀ H, H ∈ l ↔ ZeroOne H ∧ Acyclic H ∧ MarkovEquiv A H) : l.length = p.factorial ↔ CompleteSkeleton A := by
  classical
  have hsub : l.toFinset ⊆ Finset.univ.image (alongOrder A) := by
    intro H hH
    obtain ⟨h1, h2, h3⟩ := (hmem H).1 (List.mem_toFinset.1 hH)
    obtain ⟨σ, hσ⟩ := exists_order h2
    exact Finset.mem_image.2 ⟨σ, Finset.mem_univ _, (eq_alongOrder h1 h3.1 hσ).symm⟩
  have hcard : (Finset.univ : Finset (Equiv.Perm (Fin p))).card = p.factorial := by rw [Finset.card_univ, Fintype.card_perm, Fintype.card_fin]
  rw [← List.toFinset_card_of_nodup hl]
  constructor
  · intro h i j hij
    by_contra hadj
    have himg : (Finset.univ.image (alongOrder A)).card = (Finset.univ : Finset (Equiv.Perm (Fin p))).card := by
      refine le_antisymm Finset.card_image_le ?_
      rw [hcard, ← h]
      exact Finset.card_le_card hsub
    have hinj := Finset.card_image_iff.1 himg
    obtain ⟨σ, τ, hne, hst⟩ := exists_first_two hij
    refine hne (hinj (by simp) (by simp) ?_)
    funext a b
    unfold alongOrder
    by_cases hab : Adjacent A a b
    · have h1 : ¬ (a = i ∧ b = j) := by rintro ⟨rfl, rfl⟩; exact hadj hab
      have h2 : ¬ (a = j ∧ b = i) := by rintro ⟨rfl, rfl⟩; exact hadj (adjacent_comm.1 hab)
      simp only [hst a b h1 h2]
    · simp [hab]
  · intro h
    have hinj : Set.InjOn (alongOrder A) ((Finset.univ : Finset (Equiv.Perm (Fin p))) : Set (Equiv.Perm (Fin p))) := by
      intro σ _ τ _ hst
      refine perm_eq_of_lt (fun i j => ?_)
      by_cases hij : i = j
      · simp [hij]
      · have h1 := edge_alongOrder (A := A) (σ := σ) (i := i) (j := j)
        have h2 := edge_alongOrder (A := A) (σ := τ) (i := i) (j := j)
        rw [hst] at h1
        have h3 := h i j hij
        exact ⟨fun h4 => (h2.1 (h1.2 ⟨h3, h4⟩)).2, fun h4 => (h1.1 (h2.2 ⟨h3, h4⟩)).2⟩
    have hall : Finset.univ.image (alongOrder A) ⊆ l.toFinset := by
      intro H hH
      obtain ⟨σ, -, rfl⟩ := Finset.mem_image.1 hH
      rw [List.mem_toFinset, hmem]
      refine ⟨alongOrder_zeroOne A σ, alongOrder_acyclic A σ, alongOrder_skeleton hac σ, fun i c j => ?_⟩
      rw [vstructure_iff hac, vstructure_iff (alongOrder_acyclic A σ)]
      constructor
      · rintro ⟨-, -, h1, h2⟩
        exact absurd (h i j h1) h2
      · rintro ⟨-, -, h1, h2⟩
        exact absurd ((alongOrder_skeleton hac σ i j).1 (h i j h1)) h2
    rw [Finset.Subset.antisymm hsub hall, Finset.card_image_of_injOn hinj, hcard]

open Classical in
/-- The undirected edges that `H` directs from the smaller to the larger label. -/
noncomputable def forward (C H : Adj p) : Finset (Fin p × Fin p) := (undPairs C).filter (fun q => Edge H q.1 q.2)

theorem edge_asymm {A : Adj p} (hac : Acyclic A) {i j : Fin p} (h : Edge A i j) : ¬ Edge A j i :=
  fun h' => hac i ((Relation.TransGen.single h).tail h')

theorem forward_edge {C G G' : Adj p} (hG : IsExtension G C) (hG' : IsExtension G' C) (hGG : forward C G = forward C G') (i j : Fin p)
    (hij : Edge G i j) : Edge G' i j := by
  classical
  have hadj : Adjacent C i j := (hG.2.1 i j).1 (Or.inl hij)
  have hadj' : Adjacent G' i j := (hG'.2.1 i j).2 hadj
  have hne : i ≠ j := by rintro rfl; exact hij (hG.1.noLoops i)
  by_cases hu : UndEdge C i j
  · rcases lt_or_gt_of_ne hne with hlt | hlt
    · have : (i, j) ∈ forward C G := by simp [forward, undPairs, hlt, hu, hij]
      rw [hGG] at this
      exact (Finset.mem_filter.1 this).2
    · rcases hadj' with h | h
      · exact h
      · exfalso
        have : (j, i) ∈ forward C G' := by
          simp only [forward, undPairs, Finset.mem_filter, Finset.mem_univ, true_and]
          exact ⟨⟨hlt, hu.2, hu.1⟩, h⟩
        rw [← hGG] at this
        exact edge_asymm hG.1 hij (Finset.mem_filter.1 this).2
  · by_cases hc : C i j = 0
    · have hd : DirEdge C j i := ⟨hadj.resolve_left (fun h => h hc), hc⟩
      exact absurd (hG.2.2.2 j i hd) (edge_asymm hG.1 hij)
    · refine hG'.2.2.2 i j ⟨hc, ?_⟩
      by_contra h
      exact hu ⟨hc, h⟩

theorem forward_inj {C H K : Adj p} (h1 : ZeroOne H) (k1 : ZeroOne K) (eH : IsExtension H C) (eK : IsExtension K C)
    (h : forward C H = forward C K) : H = K := by
  funext i j
  by_cases hE : Edge H i j
  · rw [(h1 i j).resolve_left hE, (k1 i j).resolve_left (forward_edge eH eK h i j hE)]
  · have hE' : ¬ Edge K i j := fun h' => hE (forward_edge eK eH h.symm i j h')
    unfold Edge at hE hE'
    push Not at hE hE'
    rw [hE, hE']

theorem class_le_pow {A C : Adj p} (hext : ∀ H, IsExtension H C ↔ Acyclic H ∧ MarkovEquiv A H) {l : List (Adj p)} (hl : l.Nodup)
    (hmem : ∀ H, H ∈ l ↔ ZeroOne H ∧ Acyclic H ∧ MarkovEquiv A H) : l.length ≤ 2 ^ (undPairs C).card := by
  classical
  rw [← List.toFinset_card_of_nodup hl, ← Finset.card_powerset]
  refine Finset.card_le_card_of_injOn (forward C) ?_ ?_
  · intro H _
    simp only [Finset.coe_powerset, Set.mem_preimage, Set.mem_powerset_iff, Finset.coe_subset]
    exact Finset.filter_subset _ _
  · intro H hH K hK hHK
    obtain ⟨h1, h2, h3⟩ := (hmem H).1 (List.mem_toFinset.1 hH)
    obtain ⟨k1, k2, k3⟩ := (hmem K).1 (List.mem_toFinset.1 hK)
    exact forward_inj h1 k1 ((hext H).2 ⟨h2, h3⟩) ((hext K).2 ⟨k2, k3⟩) hHK

/-! ### Trees -/

theorem Spec.TreeFrom.no_parent {A : Adj p} {r : Fin p} (hac : Acyclic A) (h : TreeFrom A r) (u : Fin p) : ¬ Edge A u r :=
  fun hu => hac r (Relation.TransGen.tail' (h.1 u) hu)

theorem Spec.TreeFrom.root_unique {A : Adj p} {r s : Fin p} (hac : Acyclic A) (h : TreeFrom A r) (h' : TreeFrom A s) : r = s := by
  rcases Relation.reflTransGen_iff_eq_or_transGen.1 (h.1 s) with h1 | h1
  · exact h1.symm
  · exact absurd (h1.trans_left (h'.1 r)) (hac r)

theorem Spec.TreeFrom.edge_le {H K : Adj p} {r : Fin p} (hH : Acyclic H) (hK : Acyclic K) (hs : SameSkeleton H K) (h : TreeFrom H r) (k : TreeFrom K r)
    (u : Fin p) : ∀ v, Edge H u v → Edge K u v := by
  induction h.1 u with
  | refl =>
    intro v hv
    exact ((hs r v).1 (Or.inl hv)).resolve_right (k.no_parent hK v)
  | @tail t u _ htu ih =>
    intro v hv
    refine ((hs u v).1 (Or.inl hv)).resolve_right (fun hvu => ?_)
    have := k.2 v t u hvu (ih u htu)
    subst this
    exact edge_asymm hH hv htu

/-- The tree can be re-rooted at every node. -/
theorem Spec.TreeFrom.reroot {A : Adj p} {r : Fin p} (hac : Acyclic A) (h : TreeFrom A r) (v : Fin p) :
    ∃ H, Acyclic H ∧ MarkovEquiv A H ∧ TreeFrom H v := by
  induction h.1 v with
  | refl => exact ⟨A, hac, ⟨fun _ _ => Iff.rfl, fun _ _ _ => Iff.rfl⟩, h⟩
  | @tail x y _ hxy ih =>
    obtain ⟨H, h1, h2, h3⟩ := ih
    have hroot := h3.no_parent h1
    have he : Edge H x y := ((h2.1 x y).1 (Or.inl hxy)).resolve_right (hroot y)
    have hc : Covered H x y := ⟨he, fun z hz => ⟨fun hzy => absurd (h3.2 z x y hzy he) hz, fun hzx => absurd hzx (hroot z)⟩⟩
    have hyx : Edge (reverseEdge H x y) y x := edge_reverse.2 ⟨fun hh => hc.ne h1 hh.1.symm, Or.inl ⟨rfl, rfl⟩⟩
    refine ⟨reverseEdge H x y, acyclic_reverse h1 hc, markov_trans h2 (markov_symm (markov_reverse h1 hc)), fun w => ?_, fun u w b hu hw => ?_⟩
    · induction h3.1 w with
      | refl => exact Relation.ReflTransGen.single hyx
      | @tail c d _ hcd ih =>
        by_cases hq : c = x ∧ d = y
        · rw [hq.2]
        · exact ih.tail (edge_reverse.2 ⟨hq, Or.inr hcd⟩)
    · rw [edge_reverse] at hu hw
      by_cases hb : b = x
      · subst hb
        rcases hu.2 with ⟨h4, -⟩ | h4
        · rcases hw.2 with ⟨h5, -⟩ | h5
          · rw [h4, h5]
          · exact absurd h5 (hroot w)
        · exact absurd h4 (hroot u)
      · have h4 := hu.2.resolve_left (fun hh => hb hh.2)
        have h5 := hw.2.resolve_left (fun hh => hb hh.2)
        exact h3.2 u w b h4 h5

theorem exists_source {H : Adj p} (hac : Acyclic H) (r : Fin p) : ∃ s, ∀ u, ¬ Edge H u s := by
  obtain ⟨f, hf⟩ := hac.exists_rank
  obtain ⟨s, -, hs⟩ := Finset.exists_min_image Finset.univ f ⟨r, Finset.mem_univ r⟩
  exact ⟨s, fun u hu => absurd (hf u s hu) (not_lt.2 (hs u (Finset.mem_univ u)))⟩

/-- An equivalent DAG of a tree is a tree. -/
theorem Spec.TreeFrom.member {A H : Adj p} {r : Fin p} (hac : Acyclic A) (h : TreeFrom A r) (hH : Acyclic H) (hm : MarkovEquiv A H) :
    ∃ s, TreeFrom H s := by
  obtain ⟨s, hs⟩ := exists_source hH r
  -- three nodes of the tree are not pairwise adjacent
  have htri : ∀ a b c, Adjacent A a b → Adjacent A b c → Adjacent A a c → False := by
    intro a b c hab hbc hca
    have hne : ∀ {x y}, Adjacent A x y → x ≠ y := by
      rintro x _ hxy rfl
      exact hac.not_adjacent_self x hxy
    obtain ⟨f, hf⟩ := hac.exists_rank
    rcases hab with h1 | h1 <;> rcases hbc with h2 | h2 <;> rcases hca with h3 | h3
    · exact hne (Or.inl h1) (h.2 _ _ _ h3 h2)
    · have := hf _ _ h1; have := hf _ _ h2; have := hf _ _ h3; omega
    · exact hne (Or.inl h3) (h.2 _ _ _ h1 h2)
    · exact hne (Or.inr h3) (h.2 _ _ _ h1 h2)
    · exact hne (Or.inr h1) (h.2 _ _ _ h3 h2)
    · exact hne (Or.inl h2) (h.2 _ _ _ h1 h3)
    · have := hf _ _ h1; have := hf _ _ h2; have := hf _ _ h3; omega
    · exact hne (Or.inr h2) (h.2 _ _ _ h1 h3)
  have hone : ∀ u w v, Edge H u v → Edge H w v → u = w := by
    intro u w v hu hw
    by_contra hne
    by_cases hadj : Adjacent H u w
    · exact htri u v w ((hm.1 u v).2 (Or.inl hu)) ((hm.1 v w).2 (Or.inr hw)) ((hm.1 u w).2 hadj)
    · have := (hm.2 u v w).2 ((vstructure_iff hH).2 ⟨hu, hw, hne, hadj⟩)
      obtain ⟨h1, h2, h3, -⟩ := (vstructure_iff hac).1 this
      exact h3 (h.2 u w v h1 h2)
  have hclosed : ∀ v w, Relation.ReflTransGen (Edge H) s v → Adjacent A v w → Relation.ReflTransGen (Edge H) s w := by
    intro v w hv hvw
    rcases (hm.1 v w).1 hvw with h1 | h1
    · exact hv.tail h1
    · rcases Relation.ReflTransGen.cases_tail hv with h2 | ⟨u, h2, h3⟩
      · exact absurd (h2 ▸ h1) (hs w)
      · rw [hone w u v h1 h3]
        exact h2
  have hr : Relation.ReflTransGen (Edge H) s r := by
    have : ∀ x, Relation.ReflTransGen (Edge A) x s → Relation.ReflTransGen (Edge H) s x := by
      intro x hx
      induction hx using Relation.ReflTransGen.head_induction_on with
      | refl => exact Relation.ReflTransGen.refl
      | head hab _ ih => exact hclosed _ _ ih (Or.inr hab)
    exact this r (h.1 s)
  refine ⟨s, fun v => ?_, hone⟩
  induction h.1 v with
  | refl => exact hr
  | tail _ hab ih => exact hclosed _ _ ih (Or.inl hab)

theorem class_tree {A : Adj p} {r : Fin p} (hac : Acyclic A) (h : TreeFrom A r) {l : List (Adj p)} (hl : l.Nodup)
    (hmem : ∀ H, H ∈ l ↔ ZeroOne H ∧ Acyclic H ∧ MarkovEquiv A H) : l.length = p := by
  classical
  have hex : ∀ v, ∃ H ∈ l, TreeFrom H v := by
    intro v
    obtain ⟨H, h1, h2, h3⟩ := h.reroot hac v
    have he : ∀ i j, Edge H i j ↔ Edge (support H) i j := fun i j => edge_support.symm
    refine ⟨support H, (hmem _).2 ⟨support_zeroOne H, acyclic_congr he h1, markov_trans h2 (markovEquiv_support H)⟩, ?_, ?_⟩
    · intro w
      exact Relation.ReflTransGen.mono (fun a b hab => (he a b).1 hab) _ _ (h3.1 w)
    · intro u w b hu hw
      exact h3.2 u w b ((he _ _).2 hu) ((he _ _).2 hw)
  choose f hf hroot using hex
  have hinj : Function.Injective f := by
    intro v w hvw
    have h1 := hroot v
    rw [hvw] at h1
    exact h1.root_unique ((hmem _).1 (hf w)).2.1 (hroot w)
  have himg : l.toFinset = Finset.univ.image f := by
    ext H
    simp only [List.mem_toFinset, Finset.mem_image, Finset.mem_univ, true_and]
    constructor
    · intro hH
      obtain ⟨h1, h2, h3⟩ := (hmem H).1 hH
      obtain ⟨s, hs⟩ := h.member hac h2 h3
      obtain ⟨k1, k2, k3⟩ := (hmem _).1 (hf s)
      have hsk : SameSkeleton (f s) H := fun i j => (k3.1 i j).symm.trans (h3.1 i j)
      refine ⟨s, ?_⟩
      funext i j
      have e1 := (hroot s).edge_le k2 h2 hsk hs i j
      have e2 := hs.edge_le h2 k2 (fun i j => (hsk i j).symm) (hroot s) i j
      by_cases hE : Edge H i j
      · rw [(h1 i j).resolve_left hE, (k1 i j).resolve_left (e2 hE)]
      · have hE' : ¬ Edge (f s) i j := fun hh => hE (e1 hh)
        unfold Edge at hE hE'
        push Not at hE hE'
        rw [hE, hE']
    · rintro ⟨v, rfl⟩
      exact hf v
  rw [← List.toFinset_card_of_nodup hl, himg, Finset.card_image_of_injective _ hinj, Finset.card_univ, Fintype.card_fin]

/-! ### Undirected edges without a common node -/

theorem und_comm {C : Adj p} {i j : Fin p} (h : UndEdge C i j) : UndEdge C j i := ⟨h.2, h.1⟩

theorem dir_of_edge {H C : Adj p} (hH : IsExtension H C) {i j : Fin p} (h : Edge H i j) (hu : ¬ UndEdge C i j) : DirEdge C i j := by
  have hadj : Adjacent C i j := (hH.2.1 i j).1 (Or.inl h)
  by_cases hc : C i j = 0
  · exact absurd (hH.2.2.2 j i ⟨hadj.resolve_left (fun h => h hc), hc⟩) (edge_asymm hH.1 h)
  · refine ⟨hc, ?_⟩
    by_contra h'
    exact hu ⟨hc, h'⟩

theorem covered_of_matching {A C : Adj p} (hext : ∀ H, IsExtension H C ↔ Acyclic H ∧ MarkovEquiv A H)
    (hrev : ∀ i j, UndEdge C i j → ∃ H, IsExtension H C ∧ Edge H i j) (hmat : UndMatching C) {H : Adj p} (hH : IsExtension H C) {i j : Fin p}
    (hu : UndEdge C i j) (hij : Edge H i j) : Covered H i j := by
  obtain ⟨K, hK, hji⟩ := hrev j i (und_comm hu)
  have hHK : MarkovEquiv H K := markov_trans (markov_symm ((hext H).1 hH).2) ((hext K).1 hK).2
  refine ⟨hij, fun z hz => ⟨fun hzj => ?_, fun hzi => ?_⟩⟩
  · have hd : DirEdge C z j := dir_of_edge hH hzj (fun hh => hz (hmat j z i (und_comm hh) (und_comm hu)))
    have hadj : Adjacent H z i := by
      by_contra hn
      have := (hHK.2 z j i).1 ((vstructure_iff hH.1).2 ⟨hzj, hij, hz, hn⟩)
      exact edge_asymm hK.1 hji ((vstructure_iff hK.1).1 this).2.1
    have hne : z ≠ j := by rintro rfl; exact hzj (hH.1.noLoops z)
    have hKzi : Edge K z i := by
      rcases (hHK.1 z i).1 hadj with h1 | h1
      · exact h1
      · exact absurd (((Relation.TransGen.single (hK.2.2.2 z j hd)).tail hji).tail h1) (hK.1 z)
    exact hH.2.2.2 z i (dir_of_edge hK hKzi (fun hh => hne (hmat i z j (und_comm hh) hu)))
  · have hne : z ≠ j := by rintro rfl; exact edge_asymm hH.1 hij hzi
    have hd : DirEdge C z i := dir_of_edge hH hzi (fun hh => hne (hmat i z j (und_comm hh) hu))
    have hKzi := hK.2.2.2 z i hd
    have hadj : Adjacent K z j := by
      by_contra hn
      have := (hHK.2 z i j).2 ((vstructure_iff hK.1).2 ⟨hKzi, hji, hne, hn⟩)
      exact edge_asymm hH.1 hij ((vstructure_iff hH.1).1 this).2.1
    rcases (hHK.1 z j).2 hadj with h1 | h1
    · exact h1
    · exact absurd (((Relation.TransGen.single hzi).tail hij).tail h1) (hH.1 z)

theorem class_eq_pow {A C : Adj p} (hext : ∀ H, IsExtension H C ↔ Acyclic H ∧ MarkovEquiv A H)
    (hrev : ∀ i j, UndEdge C i j → ∃ H, IsExtension H C ∧ Edge H i j) (hA : IsExtension A C) (hmat : UndMatching C)
    (S : Finset (Fin p × Fin p)) (hS : S ⊆ undPairs C) : ∃ H, IsExtension H C ∧ forward C H = S := by
  classical
  -- one reversal changes the direction of one pair
  have hstep : ∀ H, IsExtension H C → ∀ i j, UndEdge C i j → Edge H i j → ∃ K, IsExtension K C ∧ Edge K j i ∧
      ∀ a b, UndEdge C a b → ¬ (a = i ∧ b = j) → ¬ (a = j ∧ b = i) → (Edge K a b ↔ Edge H a b) := by
    intro H hH i j hu hij
    have hc := covered_of_matching hext hrev hmat hH hu hij
    refine ⟨reverseEdge H i j, (hext _).2 ⟨acyclic_reverse hH.1 hc, markov_trans ((hext H).1 hH).2 (markov_symm (markov_reverse hH.1 hc))⟩,
      edge_reverse.2 ⟨fun hh => hc.ne hH.1 hh.1.symm, Or.inl ⟨rfl, rfl⟩⟩, fun a b _ h1 h2 => ?_⟩
    rw [edge_reverse]
    simp [h1, h2]
  have key : ∀ T : Finset (Fin p × Fin p), T ⊆ undPairs C → ∃ H, IsExtension H C ∧ ∀ q ∈ T, (Edge H q.1 q.2 ↔ q ∈ S) := by
    intro T
    induction T using Finset.induction_on with
    | empty => exact fun _ => ⟨A, hA, by simp⟩
    | @insert q T hq ih =>
      intro hT
      obtain ⟨H, hH, hHT⟩ := ih (fun x hx => hT (Finset.mem_insert_of_mem hx))
      obtain ⟨-, hlt, hu⟩ := by simpa only [undPairs, Finset.mem_filter] using hT (Finset.mem_insert_self q T)
      by_cases hok : Edge H q.1 q.2 ↔ q ∈ S
      · refine ⟨H, hH, fun x hx => ?_⟩
        rcases Finset.mem_insert.1 hx with rfl | hx
        · exact hok
        · exact hHT x hx
      · -- the other pairs keep their direction
        have hrest : ∀ x ∈ T, ¬ (x.1 = q.1 ∧ x.2 = q.2) ∧ ¬ (x.1 = q.2 ∧ x.2 = q.1) ∧ UndEdge C x.1 x.2 := by
          intro x hx
          obtain ⟨-, h1, h2⟩ := by simpa only [undPairs, Finset.mem_filter] using hT (Finset.mem_insert_of_mem hx)
          refine ⟨fun hh => hq ?_, fun hh => ?_, h2⟩
          · rw [← Prod.ext hh.1 hh.2]
            exact hx
          · rw [hh.1, hh.2] at h1
            exact absurd h1 (not_lt.2 hlt.le)
        by_cases he : Edge H q.1 q.2
        · obtain ⟨K, hK, h1, h2⟩ := hstep H hH q.1 q.2 hu he
          refine ⟨K, hK, fun x hx => ?_⟩
          rcases Finset.mem_insert.1 hx with rfl | hx
          · have : x ∉ S := fun hh => hok ⟨fun _ => hh, fun _ => he⟩
            exact ⟨fun hh => absurd hh (edge_asymm hK.1 h1), fun hh => absurd hh this⟩
          · obtain ⟨r1, r2, r3⟩ := hrest x hx
            rw [h2 x.1 x.2 r3 r1 r2]
            exact hHT x hx
        · have he' : Edge H q.2 q.1 := ((hH.2.1 q.1 q.2).2 (Or.inl hu.1)).resolve_left he
          obtain ⟨K, hK, h1, h2⟩ := hstep H hH q.2 q.1 (und_comm hu) he'
          refine ⟨K, hK, fun x hx => ?_⟩
          rcases Finset.mem_insert.1 hx with rfl | hx
          · have : x ∈ S := by
              by_contra hh
              exact hok ⟨fun h3 => absurd h3 he, fun h3 => absurd h3 hh⟩
            exact ⟨fun _ => this, fun _ => h1⟩
          · obtain ⟨r1, r2, r3⟩ := hrest x hx
            rw [h2 x.1 x.2 r3 r2 r1]
            exact hHT x hx
  obtain ⟨H, hH, hHS⟩ := key (undPairs C) (Finset.Subset.refl _)
  refine ⟨H, hH, ?_⟩
  ext q
  simp only [forward, Finset.mem_filter]
  exact ⟨fun h => (hHS q h.1).1 h.2, fun h => ⟨hS h, (hHS q (hS h)).2 h⟩⟩

/-- If all orientations occur, no two undirected edges meet. -/
theorem matching_of_all {C : Adj p} (hl : NoLoops C)
    (hall : ∀ S ⊆ undPairs C, ∃ H, IsExtension H C ∧ forward C H = S) : UndMatching C := by
  classical
  intro i j k hij hik
  by_contra hne
  -- an orientation given by any choice of directions
  have hchoice : ∀ d : Fin p → Fin p → Prop, (∀ a b, UndEdge C a b → (d a b ↔ ¬ d b a)) →
      ∃ H, IsExtension H C ∧ ∀ a b, UndEdge C a b → (Edge H a b ↔ d a b) := by
    intro d hd
    obtain ⟨H, hH, hS⟩ := hall ((undPairs C).filter (fun q => d q.1 q.2)) (Finset.filter_subset _ _)
    have hf : ∀ a b, a < b → UndEdge C a b → (Edge H a b ↔ d a b) := by
      intro a b hab hu
      have := Finset.ext_iff.1 hS (a, b)
      simp only [forward, undPairs, Finset.mem_filter, Finset.mem_univ, true_and] at this
      exact ⟨fun h => (this.1 ⟨⟨hab, hu⟩, h⟩).2, fun h => (this.2 ⟨⟨hab, hu⟩, h⟩).2⟩
    refine ⟨H, hH, fun a b hu => ?_⟩
    have hab : a ≠ b := by rintro rfl; exact hu.1 (hl a)
    rcases lt_or_gt_of_ne hab with h | h
    · exact hf a b h hu
    · have h1 := hf b a h (und_comm hu)
      have hadj : Edge H a b ∨ Edge H b a := (hH.2.1 a b).2 (Or.inl hu.1)
      rw [hd a b hu, ← h1]
      exact ⟨fun h2 => edge_asymm hH.1 h2, fun h2 => hadj.resolve_right h2⟩
  have hfollow : ∀ P : Fin p → Fin p → Prop, (∀ a b, P a b → ¬ P b a) → ∃ H, IsExtension H C ∧ ∀ a b, UndEdge C a b → P a b → Edge H a b := by
    intro P hP
    obtain ⟨H, hH, hd⟩ := hchoice (fun a b => P a b ∨ (¬ P b a ∧ a < b)) (fun a b hu => by
      have hab : a ≠ b := by rintro rfl; exact hu.1 (hl a)
      by_cases h1 : P a b
      · simp [h1, hP a b h1]
      · by_cases h2 : P b a
        · simp [h1, h2]
        · simp only [h1, h2, not_false_eq_true, true_and, false_or]
          exact ⟨fun h => not_lt.2 h.le, fun h => lt_of_le_of_ne (not_lt.1 h) hab⟩)
    exact ⟨H, hH, fun a b hu h => (hd a b hu).2 (Or.inl h)⟩
  have hijn : i ≠ j := by rintro rfl; exact hij.1 (hl i)
  have hikn : i ≠ k := by rintro rfl; exact hik.1 (hl i)
  by_cases hadj : Adjacent C j k
  · by_cases hjk : UndEdge C j k
    · obtain ⟨H, hH, hf⟩ := hfollow (fun a b => (a = i ∧ b = j) ∨ (a = j ∧ b = k) ∨ (a = k ∧ b = i)) (by
        intro a b; grind)
      have h1 := hf i j hij (Or.inl ⟨rfl, rfl⟩)
      have h2 := hf j k hjk (Or.inr (Or.inl ⟨rfl, rfl⟩))
      have h3 := hf k i (und_comm hik) (Or.inr (Or.inr ⟨rfl, rfl⟩))
      exact hH.1 i (((Relation.TransGen.single h1).tail h2).tail h3)
    · by_cases hc : C j k = 0
      · obtain ⟨H, hH, hf⟩ := hfollow (fun a b => (a = j ∧ b = i) ∨ (a = i ∧ b = k)) (by
          intro a b; grind)
        have h1 := hf j i (und_comm hij) (Or.inl ⟨rfl, rfl⟩)
        have h2 := hf i k hik (Or.inr ⟨rfl, rfl⟩)
        have h3 := hH.2.2.2 k j ⟨hadj.resolve_left (fun h => h hc), hc⟩
        exact hH.1 i (((Relation.TransGen.single h2).tail h3).tail h1)
      · obtain ⟨H, hH, hf⟩ := hfollow (fun a b => (a = k ∧ b = i) ∨ (a = i ∧ b = j)) (by
          intro a b; grind)
        have h1 := hf k i (und_comm hik) (Or.inl ⟨rfl, rfl⟩)
        have h2 := hf i j hij (Or.inr ⟨rfl, rfl⟩)
        have hkj : C k j = 0 := by
          by_contra hh
          exact hjk ⟨hc, hh⟩
        have h3 := hH.2.2.2 j k ⟨hc, hkj⟩
        exact hH.1 i (((Relation.TransGen.single h2).tail h3).tail h1)
  · obtain ⟨H, hH, hf⟩ := hfollow (fun a b => b = i ∧ a ≠ i) (fun a b h h' => h.2 h'.1)
    have h1 := hf j i (und_comm hij) ⟨rfl, hijn.symm⟩
    have h2 := hf k i (und_comm hik) ⟨rfl, hikn.symm⟩
    have hn : ¬ Adjacent H j k := fun h => hadj ((hH.2.1 j k).1 h)
    have := (hH.2.2.1 j i k).1 ((vstructure_iff hH.1).2 ⟨h1, h2, hne, hn⟩)
    exact hij.1 this.1.2

end Verif
