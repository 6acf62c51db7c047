import Verif.Proof.ClassSize
import Verif.Props.Enum
import Verif.Props.Pdag

/-!
# C137: how many graphs `mec` and `all_dags` return
-/

namespace Verif

open Spec

variable {p : Nat}

/-- C137: the number of graphs that `mec` returns is between one and the smaller of `2 ^ u`, where `u` is the number of undirected edges of the CPDAG,
and `p!`.  It is one exactly if the CPDAG has no undirected edge, and `p!` exactly if every two variables are adjacent. -/
theorem C137_class_size (it : SetIter p) (A : Adj p) (hA : Nonneg A) (hac : Acyclic A) (c : Bool) (hp : 0 < p ∨ c = false) :
    ∃ l C, mec it A c = .ok l ∧ dagToCpdag it A = .ok C ∧ 1 ≤ l.length ∧ l.length ≤ 2 ^ (undPairs C).card ∧ l.length ≤ p.factorial ∧
      (l.length = 1 ↔ ¬ ∃ i j, UndEdge C i j) ∧ (l.length = p.factorial ↔ CompleteSkeleton A) := by
  obtain ⟨l, h1, hl, hmem⟩ := C24_mec it A hA hac c hp
  obtain ⟨C, hC, -⟩ := C17_essential_graph it A hA hac
  obtain ⟨-, hext⟩ := C18_extensions it A C hA hac hC
  have hle := class_le_pow hext hl hmem
  have hself : support A ∈ l := (hmem _).2 ⟨support_zeroOne A, acyclic_congr (fun i j => edge_support.symm) hac, markovEquiv_support A⟩
  have hpos : 1 ≤ l.length := List.length_pos_of_mem hself
  refine ⟨l, C, h1, hC, hpos, hle, class_le_factorial hl hmem, ⟨?_, ?_⟩, class_eq_factorial_iff hac hl hmem⟩
  · rintro hlen ⟨i, j, hij⟩
    obtain ⟨⟨H, hH1, hH2, hH3⟩, K, hK1, hK2, hK3⟩ := C17_reversible it A C hA hac hC i j hij
    obtain ⟨x, hx⟩ := List.length_eq_one_iff.1 hlen
    have mem : ∀ G, Acyclic G → MarkovEquiv A G → support G = x := by
      intro G hG hG'
      have : support G ∈ l := (hmem _).2 ⟨support_zeroOne G, acyclic_congr (fun i j => edge_support.symm) hG, hG'.trans (markovEquiv_support G)⟩
      rw [hx] at this
      simpa using this
    have h2 : Edge H j i := by
      rw [← edge_support, mem H hH1 hH2, ← mem K hK1 hK2, edge_support]
      exact hK3
    exact hH1 i ((Relation.TransGen.single hH3).tail h2)
  · intro hu
    have : undPairs C = ∅ := Finset.filter_eq_empty_iff.2 (fun q _ h => hu ⟨q.1, q.2, h.2⟩)
    rw [this] at hle
    simp at hle
    omega

/-- C137: the class of a tree whose edges point away from a root has as many members as there are variables: one for every choice of the root. -/
theorem C137_tree (it : SetIter p) (A : Adj p) (hA : Nonneg A) (hac : Acyclic A) (r : Fin p) (h : TreeFrom A r) (c : Bool) :
    ∃ l, mec it A c = .ok l ∧ l.length = p ∧ (∀ H ∈ l, ∃ s, TreeFrom H s) ∧ ∀ s, ∃! H, H ∈ l ∧ TreeFrom H s := by
  obtain ⟨l, h1, hl, hmem⟩ := C24_mec it A hA hac c (Or.inl (Nat.zero_lt_of_lt r.isLt))
  refine ⟨l, h1, class_tree hac h hl hmem, fun H hH => ?_, fun s => ?_⟩
  · obtain ⟨-, h2, h3⟩ := (hmem H).1 hH
    exact h.member hac h2 h3
  · obtain ⟨H, g1, g2, g3⟩ := h.reroot hac s
    have he : ∀ i j, Edge H i j ↔ Edge (support H) i j := fun i j => edge_support.symm
    have hs : TreeFrom (support H) s := ⟨fun w => Relation.ReflTransGen.mono (fun a b hab => (he a b).1 hab) _ _ (g3.1 w),
      fun u w b hu hw => g3.2 u w b ((he _ _).2 hu) ((he _ _).2 hw)⟩
    have hin : support H ∈ l := (hmem _).2 ⟨support_zeroOne H, acyclic_congr he g1, markov_trans g2 (markovEquiv_support H)⟩
    refine ⟨support H, ⟨hin, hs⟩, ?_⟩
    rintro K ⟨hK, hKs⟩
    obtain ⟨h1, h2, h3⟩ := (hmem K).1 hK
    obtain ⟨k1, k2, k3⟩ := (hmem _).1 hin
    have hsk : SameSkeleton (support H) K := fun i j => (k3.1 i j).symm.trans (h3.1 i j)
    funext i j
    have e1 := hs.edge_le k2 h2 hsk hKs i j
    have e2 := hKs.edge_le h2 k2 (fun i j => (hsk i j).symm) hs i j
    by_cases hE : Edge K i j
    · rw [(h1 i j).resolve_left hE, (k1 i j).resolve_left (e2 hE)]
    · have hE' : ¬ Edge (support H) i j := fun hh => hE (e1 hh)
      unfold Edge at hE hE'
      push Not at hE hE'
      rw [hE, hE']

/-- C137: the number of results is `2 ^ u` exactly if no two undirected edges of the CPDAG share a node. -/
theorem C137_all_orientations (it : SetIter p) (A C : Adj p) (hA : Nonneg A) (hac : Acyclic A) (hC : dagToCpdag it A = .ok C) (c : Bool)
    (hp : 0 < p ∨ c = false) : ∃ l, mec it A c = .ok l ∧ (l.length = 2 ^ (undPairs C).card ↔ UndMatching C) := by
  classical
  obtain ⟨l, h1, hl, hmem⟩ := C24_mec it A hA hac c hp
  obtain ⟨hself, hext⟩ := C18_extensions it A C hA hac hC
  have hinj : Set.InjOn (forward C) (l.toFinset : Set (Adj p)) := by
    intro H hH K hK h
    obtain ⟨g1, g2, g3⟩ := (hmem H).1 (List.mem_toFinset.1 hH)
    obtain ⟨k1, k2, k3⟩ := (hmem K).1 (List.mem_toFinset.1 hK)
    exact forward_inj g1 k1 ((hext H).2 ⟨g2, g3⟩) ((hext K).2 ⟨k2, k3⟩) h
  have hsub : l.toFinset.image (forward C) ⊆ (undPairs C).powerset := by
    intro S hS
    obtain ⟨H, -, rfl⟩ := Finset.mem_image.1 hS
    exact Finset.mem_powerset.2 (Finset.filter_subset _ _)
  have hmemS : ∀ H, IsExtension H C → support H ∈ l ∧ forward C (support H) = forward C H := by
    intro H hH
    obtain ⟨g1, g2⟩ := (hext H).1 hH
    refine ⟨(hmem _).2 ⟨support_zeroOne H, acyclic_congr (fun i j => edge_support.symm) g1, markov_trans g2 (markovEquiv_support H)⟩, ?_⟩
    unfold forward
    simp only [edge_support]
  refine ⟨l, h1, ?_⟩
  rw [← List.toFinset_card_of_nodup hl, ← Finset.card_image_of_injOn hinj, ← Finset.card_powerset]
  constructor
  · intro hcard
    have heq := Finset.eq_of_subset_of_card_le hsub hcard.ge
    refine matching_of_all (fun i => by
      by_contra hh
      exact hac.not_adjacent_self i ((hself.1 i i).2 (Or.inl hh))) (fun S hS => ?_)
    have : S ∈ l.toFinset.image (forward C) := by
      rw [heq]
      exact Finset.mem_powerset.2 hS
    obtain ⟨H, hH, rfl⟩ := Finset.mem_image.1 this
    obtain ⟨-, g2, g3⟩ := (hmem H).1 (List.mem_toFinset.1 hH)
    exact ⟨H, (hext H).2 ⟨g2, g3⟩, rfl⟩
  · intro hmat
    refine congrArg _ (Finset.Subset.antisymm hsub (fun S hS => ?_))
    obtain ⟨H, hH, rfl⟩ := class_eq_pow hext (fun i j hu => by
      obtain ⟨⟨K, k1, k2, k3⟩, -⟩ := C17_reversible it A C hA hac hC i j hu
      exact ⟨K, (hext K).2 ⟨k1, k2⟩, k3⟩) ((hext A).2 ⟨hac, fun _ _ => Iff.rfl, fun _ _ _ => Iff.rfl⟩) hmat S (Finset.mem_powerset.1 hS)
    obtain ⟨g1, g2⟩ := hmemS H hH
    exact Finset.mem_image.2 ⟨support H, List.mem_toFinset.2 g1, g2⟩

/-- C137: `all_dags` of the complete undirected graph returns the `p!` complete DAGs. -/
theorem C137_complete_undirected (it : SetIter p) (hp : 1 < p) (U : Adj p) (hU : ∀ i j, U i j = if i = j then 0 else 1) :
    ∃ l, allDags it U = .ok l ∧ l.length = p.factorial := by
  have hl : NoLoops U := fun i => by simp [hU]
  have h01 : ZeroOne U := fun i j => by rw [hU]; split_ifs <;> simp
  have hu : ∀ i j, i ≠ j → UndEdge U i j := fun i j h => ⟨by simp [hU, h], by simp [hU, h.symm]⟩
  obtain ⟨l, h1, h2, h3⟩ := C23_all_dags it U h01 hl (Or.inl ⟨⟨0, by omega⟩, ⟨1, hp⟩, hu _ _ (by simp)⟩)
  refine ⟨l, h1, ?_⟩
  let A := alongOrder U 1
  have hac : Acyclic A := alongOrder_acyclic U 1
  have hadjU : ∀ i j, Adjacent U i j ↔ i ≠ j := by
    intro i j
    constructor
    · rintro (h | h) rfl <;> exact h (hl i)
    · intro h
      exact Or.inl (hu i j h).1
  have hadjA : ∀ i j, Adjacent A i j ↔ i ≠ j := by
    intro i j
    constructor
    · rintro h rfl
      exact hac.not_adjacent_self i h
    · intro h
      rcases lt_or_gt_of_ne h with h' | h'
      · exact Or.inl (edge_alongOrder.2 ⟨(hadjU i j).2 h, h'⟩)
      · exact Or.inr (edge_alongOrder.2 ⟨(hadjU j i).2 h.symm, h'⟩)
  have hext : ∀ H, IsExtension H U ↔ Acyclic H ∧ MarkovEquiv A H := by
    intro H
    constructor
    · rintro ⟨g1, g2, g3, -⟩
      have hs : SameSkeleton A H := fun i j => by rw [hadjA, g2, hadjU]
      refine ⟨g1, hs, fun i c j => ?_⟩
      rw [vstructure_iff hac, vstructure_iff g1]
      constructor
      · rintro ⟨-, -, q1, q2⟩
        exact absurd ((hadjA i j).2 q1) q2
      · rintro ⟨-, -, q1, q2⟩
        exact absurd ((hs i j).1 ((hadjA i j).2 q1)) q2
    · rintro ⟨g1, g2, -⟩
      have hs : SameSkeleton H U := fun i j => by rw [← g2, hadjA, hadjU]
      refine ⟨g1, hs, fun i c j => ?_, fun i j hd => ?_⟩
      · rw [vstructure_iff g1]
        constructor
        · rintro ⟨-, -, q1, q2⟩
          exact absurd ((hs i j).2 ((hadjU i j).2 q1)) q2
        · intro q
          have hne : i ≠ c := by
            rintro rfl
            exact q.1.1 (hl i)
          exact absurd q.1.2 (hu i c hne).2
      · by_cases hij : i = j
        · subst hij
          exact absurd (hl i) hd.1
        · exact absurd hd.2 (hu i j hij).2
  refine (class_eq_factorial_iff hac h2 (fun H => ?_)).2 (fun i j h => (hadjA i j).2 h)
  rw [h3, hext]

/-! ### Cases meeting the hypotheses -/

-- a star: all nodes are reached from the centre, which is not the first node
theorem star_tree : TreeFrom (![![0, 0, 0], ![1, 0, 1], ![0, 0, 0]] : Adj 3) 1 := by
  refine ⟨fun v => ?_, fun u w v => ?_⟩
  · fin_cases v
    · exact Relation.ReflTransGen.single (show (1 : Int) ≠ 0 by decide)
    · exact Relation.ReflTransGen.refl
    · exact Relation.ReflTransGen.single (show (1 : Int) ≠ 0 by decide)
  · revert u w v
    unfold Edge
    decide

theorem star_acyclic : Acyclic (![![0, 0, 0], ![1, 0, 1], ![0, 0, 0]] : Adj 3) :=
  acyclic_of_rank ![1, 0, 1] (by unfold Edge; decide)

example : ∃ l, mec (SetIter.incr 3) ![![0, 0, 0], ![1, 0, 1], ![0, 0, 0]] true = .ok l ∧ l.length = 3 ∧
    (∀ H ∈ l, ∃ s, TreeFrom H s) ∧ ∀ s, ∃! H, H ∈ l ∧ TreeFrom H s :=
  C137_tree _ _ (by unfold Nonneg; decide) star_acyclic 1 star_tree true

-- two separate edges: all four orientations; the bound `2 ^ u` is met and the bound `p!` is not
theorem pairs_acyclic : Acyclic (![![0, 1, 0, 0], ![0, 0, 0, 0], ![0, 0, 0, 0], ![0, 0, 1, 0]] : Adj 4) :=
  acyclic_of_rank ![0, 1, 1, 0] (by unfold Edge; decide)

theorem pairs_cpdag : dagToCpdag (SetIter.incr 4) ![![0, 1, 0, 0], ![0, 0, 0, 0], ![0, 0, 0, 0], ![0, 0, 1, 0]] =
    .ok ![![0, 1, 0, 0], ![1, 0, 0, 0], ![0, 0, 0, 1], ![0, 0, 1, 0]] := eq_of_okEq (by decide +kernel)

example : UndMatching (![![0, 1, 0, 0], ![1, 0, 0, 0], ![0, 0, 0, 1], ![0, 0, 1, 0]] : Adj 4) := by
  unfold UndMatching UndEdge
  decide

example : (match mec (SetIter.incr 4) ![![0, 1, 0, 0], ![0, 0, 0, 0], ![0, 0, 0, 0], ![0, 0, 1, 0]] true with
    | .ok l => decide (l.length = 4) | .error _ => false) = true := by decide +kernel

-- the star has two undirected edges which meet, and three members instead of four
example : ¬ UndMatching (![![0, 1, 0], ![1, 0, 1], ![0, 1, 0]] : Adj 3) := by
  unfold UndMatching UndEdge
  decide

-- a complete DAG
example : CompleteSkeleton (![![0, 1, 1], ![0, 0, 1], ![0, 0, 0]] : Adj 3) := by
  unfold CompleteSkeleton Adjacent
  decide

example : ∃ l, allDags (SetIter.incr 4) (fun i j => if i = j then 0 else 1) = .ok l ∧ l.length = 24 :=
  C137_complete_undirected _ (by decide) _ (fun _ _ => rfl)

end Verif
