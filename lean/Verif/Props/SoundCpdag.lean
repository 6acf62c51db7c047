import Verif.Props.SoundClass

/-!
# C156: `dag_to_cpdag` and `mec` are sound for weights of any sign, and the assertion of `dag_to_icpdag` never fails
-/

namespace Verif
open Spec
variable {p : Nat}

/-- What holds during `label_edges`: the edges into a node are all unlabelled or all labelled, and in the second case those of v-structures are
compelled. -/
structure VInv (G L : Adj p) : Prop where
  edge : ∀ a b, L a b ≠ 0 ↔ Edge G a b
  val : ∀ a b, L a b ≠ 0 → L a b = 1 ∨ L a b = -1 ∨ L a b = -2
  col : ∀ y, (∀ a, L a y ≠ 0 → L a y = -2) ∨ ∀ a, L a y ≠ -2
  vst : ∀ a y b, VStructure G a y b → L a y ≠ -2 → L a y = 1

theorem labelPass_sound {G : Adj p} (hac : Acyclic G) {O L L' : Adj p} (hO : ∀ a b, Edge G a b → 1 ≤ O a b)
    (hT : ∀ z x y, Edge G z x → Edge G x y → O x y < O z x) (h : VInv G L) (hex : ∃ a b, L a b = -2) (hp : labelPass O L = .ok L') : VInv G L' := by
  obtain ⟨a0, b0, h0⟩ := hex
  have hL := h.edge
  have hE : ∀ {a b}, L a b = -2 → Edge G a b := fun h => (hL _ _).1 (by omega)
  unfold labelPass at hp
  obtain ⟨⟨x, y⟩, hm, hmax⟩ := argmaxPair_spec (fun a b => if O a b * (if L a b = -2 then 1 else 0) = 0 then none
    else some (O a b * (if L a b = -2 then 1 else 0))) a0 b0
  dsimp only at hmax hp
  rw [hm] at hp
  dsimp only at hp
  have hxy : L x y = -2 := by
    by_contra hc
    have h1 := hmax a0 b0
    rw [if_pos h0, if_neg (show ¬ O a0 b0 * 1 = 0 by have := hO a0 b0 (hE h0); omega), if_neg hc] at h1
    simp [floatGt] at h1
  have hxmax : ∀ a b, L a b = -2 → O a b ≤ O x y := by
    intro a b hab
    have h1 := hmax a b
    rw [if_pos hab, if_neg (show ¬ O a b * 1 = 0 by have := hO a b (hE hab); omega), if_pos hxy,
      if_neg (show ¬ O x y * 1 = 0 by have := hO x y (hE hxy); omega)] at h1
    simp [floatGt] at h1
    exact h1
  have hcx : ∀ a, L a x ≠ -2 := by
    intro a ha
    have h1 := hT a x y (hE ha) (hE hxy)
    have h2 := hxmax a x ha
    omega
  have hcy : ∀ a, L a y ≠ 0 → L a y = -2 := (h.col y).resolve_right fun hc => hc x hxy
  have hy : ∀ a, L a y ≠ 0 → L y a = 0 := by
    intro a ha
    by_contra hc
    exact (hL _ _).1 hc (hac.no_two ((hL _ _).1 ha))
  obtain ⟨hw1, hw2⟩ := labelW_spec y (whereVec (fun w => decide (L w x = 1))) L hy
  by_cases hw : ∃ w ∈ whereVec (fun w => decide (L w x = 1)), L w y = 0
  · rw [hw2 hw] at hp
    injection hp with hp
    have hv : ∀ a b, L' a b = if b = y ∧ L a b ≠ 0 then 1 else L a b := fun a b => by rw [← hp]
    refine ⟨fun a b => ?_, fun a b => ?_, fun c => ?_, fun a c b hs => ?_⟩
    · rw [hv]
      split
      · rename_i h'
        exact ⟨fun _ => (hL _ _).1 h'.2, fun _ => by decide⟩
      · exact hL a b
    · rw [hv]
      split
      · exact fun _ => .inl rfl
      · exact h.val a b
    · by_cases hc : c = y
      · right
        intro a
        rw [hv]
        split
        · decide
        · rename_i h'
          intro h2
          exact h' ⟨hc, by omega⟩
      · simpa [hv, hc] using h.col c
    · rw [hv]
      split
      · exact fun _ => rfl
      · exact h.vst a c b hs
  · push Not at hw
    rw [hw1 hw] at hp
    obtain ⟨M, hM⟩ : ∃ M : Adj p, M = fun a b => if b = y ∧ a ∈ whereVec (fun w => decide (L w x = 1)) then 1 else L a b := ⟨_, rfl⟩
    have hMv : ∀ a b, M a b = if b = y ∧ L a x = 1 then 1 else L a b := fun a b => by
      rw [hM]
      simp
    rw [← hM] at hp
    dsimp only at hp
    have hME : ∀ a b, M a b ≠ 0 ↔ Edge G a b := by
      intro a b
      rw [hMv]
      split
      · rename_i h'
        refine ⟨fun _ => ?_, fun _ => by decide⟩
        rw [h'.1]
        exact (hL _ _).1 (hw a (by simpa using h'.2))
      · exact hL a b
    split at hp
    swap
    · cases hp
    injection hp with hp
    have hv : ∀ a b, L' a b = if b = y ∧ M a b = -2 then (if decide (((pa y M \ {x}) \ pa x M).card > 0) = true then 1 else -1) else M a b := fun a b => by
      rw [← hp]
    have hMy : ∀ a, M a y ≠ 0 → M a y = -2 ∨ M a y = 1 := by
      intro a ha
      rw [hMv] at ha ⊢
      split
      · exact .inr rfl
      · rename_i h'
        rw [if_neg h'] at ha
        exact .inl (hcy a ha)
    have hrest : ∀ a b, b ≠ y → L' a b = L a b := by
      intro a b hb
      rw [hv, if_neg (fun h => hb h.1), hMv, if_neg (fun h => hb h.1)]
    refine ⟨fun a b => ?_, fun a b => ?_, fun c => ?_, fun a c b hs => ?_⟩
    · rw [hv]
      split
      · rename_i h'
        refine ⟨fun _ => (hME a b).1 (by omega), fun _ => ?_⟩
        split <;> decide
      · exact hME a b
    · rw [hv]
      split
      · intro _
        split
        · exact .inl rfl
        · exact .inr (.inl rfl)
      · rw [hMv]
        split
        · exact fun _ => .inl rfl
        · exact h.val a b
    · by_cases hc : c = y
      · right
        intro a
        rw [hv]
        split
        · split <;> decide
        · rename_i h'
          exact fun h2 => h' ⟨hc, h2⟩
      · simpa [hrest _ _ hc] using h.col c
    · by_cases hc : c = y
      · subst hc
        intro _
        have hac' : Edge G a c := hs.1.1
        have hbc : Edge G b c := hs.2.1.1
        rw [hv]
        rcases hMy a ((hME a c).2 hac') with h2 | h2
        · rw [if_pos ⟨rfl, h2⟩, if_pos]
          rw [decide_eq_true_eq, gt_iff_lt, Finset.card_pos]
          -- otherwise all parents of `c` other than `x` are parents of `x`
          by_contra hno
          have hpar : ∀ z, Edge G z c → z ≠ x → Edge G z x := by
            intro z hz hzx
            by_contra hc
            refine hno ⟨z, ?_⟩
            rw [Finset.mem_sdiff, Finset.mem_sdiff, Finset.mem_singleton, mem_pa, mem_pa]
            refine ⟨⟨⟨(hME z c).2 hz, ?_⟩, hzx⟩, fun hh => hc ((hME z x).1 hh.1)⟩
            by_contra hcz
            exact (hME c z).1 hcz (hac.no_two hz)
          by_cases hax : a = x
          · subst hax
            exact hs.2.2.2 (.inr (hpar b hbc (fun hb => hs.2.2.1 hb.symm)))
          · by_cases hbx : b = x
            · subst hbx
              exact hs.2.2.2 (.inl (hpar a hac' hax))
            · have ha := hpar a hac' hax
              have hb := hpar b hbc hbx
              have h3 := h.vst a x b ⟨⟨ha, hac.no_two ha⟩, ⟨hb, hac.no_two hb⟩, hs.2.2⟩ (hcx a)
              rw [hMv, if_pos ⟨rfl, h3⟩] at h2
              omega
        · rw [if_neg (by omega), h2]
      · rw [hrest _ _ hc]
        exact h.vst a c b hs

theorem labelLoop_sound {G : Adj p} (hac : Acyclic G) {O : Adj p} (hO : ∀ a b, Edge G a b → 1 ≤ O a b)
    (hT : ∀ z x y, Edge G z x → Edge G x y → O x y < O z x) (n : Nat) (L L' : Adj p) (h : VInv G L) (hl : labelLoop O n L = .ok L') :
    VInv G L' ∧ ∀ a b, L' a b ≠ -2 := by
  induction n generalizing L with
  | zero =>
    rw [labelLoop] at hl
    split at hl
    · cases hl
    · rename_i hno
      cases hl
      exact ⟨h, fun a b hab => hno ⟨a, b, hab⟩⟩
  | succ n ih =>
    rw [labelLoop] at hl
    split at hl
    · rename_i hex
      split at hl
      · cases hl
      · rename_i L1 h1
        exact ih L1 (labelPass_sound hac hO hT h hex h1) hl
    · rename_i hno
      cases hl
      exact ⟨h, fun a b hab => hno ⟨a, b, hab⟩⟩

theorem labelEdges_sound (it : SetIter p) {G : Adj p} (hac : Acyclic G) {O L : Adj p} (hE : ∀ a b, O a b ≠ 0 ↔ Edge G a b) (hO : ∀ a b, Edge G a b → 1 ≤ O a b)
    (hT : ∀ z x y, Edge G z x → Edge G x y → O x y < O z x) (h : labelEdges it O = .ok L) : IsExtension G (cpdagOf L) := by
  unfold labelEdges at h
  split at h
  · cases h
  split at h
  · cases h
  obtain ⟨hi, hno⟩ := labelLoop_sound hac hO hT p _ L (by
    refine ⟨fun a b => ?_, fun a b => ?_, fun y => .inl fun a => ?_, fun a y b hs hne => ?_⟩
    · rw [← hE]
      split <;> simp_all
    · split
      · exact fun _ => .inr (.inr rfl)
      · exact fun h => absurd rfl h
    · split
      · exact fun _ => rfl
      · exact fun h => absurd rfl h
    · exfalso
      apply hne
      rw [if_pos ((hE a y).2 hs.1.1)]) h
  have hval : ∀ a b, L a b = 0 ∨ L a b = 1 ∨ L a b = -1 := by
    intro a b
    by_cases h0 : L a b = 0
    · exact .inl h0
    · rcases hi.val a b h0 with h | h | h
      · exact .inr (.inl h)
      · exact .inr (.inr h)
      · exact absurd h (hno a b)
  have htwo : ∀ a b, L a b ≠ 0 → L b a = 0 := by
    intro a b hab
    by_contra hc
    exact (hi.edge b a).1 hc (hac.no_two ((hi.edge a b).1 hab))
  have hadj : ∀ a b, Adjacent G a b ↔ Adjacent (cpdagOf L) a b := by
    intro a b
    have hA : Adjacent G a b ↔ L a b ≠ 0 ∨ L b a ≠ 0 := or_congr (hi.edge a b).symm (hi.edge b a).symm
    rw [hA]
    unfold Adjacent cpdagOf
    rcases hval a b with h1 | h1 | h1 <;> rcases hval b a with h2 | h2 | h2 <;> simp [h1, h2]
  have hdir : ∀ a b, DirEdge (cpdagOf L) a b ↔ L a b = 1 := by
    intro a b
    have ht := htwo a b
    unfold DirEdge cpdagOf
    rcases hval a b with h1 | h1 | h1 <;> rcases hval b a with h2 | h2 | h2 <;> simp_all
  refine ⟨hac, hadj, fun a c b => ?_, fun a b hab => (hi.edge a b).1 (by rw [(hdir a b).1 hab]; decide)⟩
  constructor
  · intro hs
    have hs' : VStructure G b c a := ⟨hs.2.1, hs.1, fun h => hs.2.2.1 h.symm, fun h => hs.2.2.2 h.symm⟩
    exact ⟨(hdir a c).2 (hi.vst a c b hs (hno a c)), (hdir b c).2 (hi.vst b c a hs' (hno b c)), hs.2.2.1, fun h => hs.2.2.2 ((hadj a b).2 h)⟩
  · intro hs
    have h1 : Edge G a c := (hi.edge a c).1 (by rw [(hdir a c).1 hs.1]; decide)
    have h2 : Edge G b c := (hi.edge b c).1 (by rw [(hdir b c).1 hs.2.1]; decide)
    exact ⟨⟨h1, hac.no_two h1⟩, ⟨h2, hac.no_two h2⟩, hs.2.2.1, fun h => hs.2.2.2 ((hadj a b).1 h)⟩

theorem cpdag_sound_core (it : SetIter p) {G : Adj p} (hac : Acyclic G) {order : List (Fin p)} (hall : ∀ v, v ∈ order) {O L : Adj p}
    (hO : orderEdgesLoop order (p * p) 1 (fun a b => if G a b ≠ 0 then -1 else 0) = .ok O) (hL : labelEdges it O = .ok L) :
    IsExtension G (cpdagOf L) := by
  have hf : ∀ a b, Edge G a b → order.idxOf a < order.idxOf b := by
    intro a b hab
    by_contra hc
    rcases Nat.lt_or_ge (order.idxOf b) (order.idxOf a) with hlt | hge
    · have := (order_core it hac hall).2 ⟨a, b, hab, hlt⟩
      rw [hO] at this
      cases this
    · have hba : a = b := (List.idxOf_inj (hall a)).1 (by omega)
      subst hba
      exact hab (hac.noLoops a)
  obtain ⟨O', i, hO', hlab, hs, hno⟩ := orderEdgesLoop_forward hall hf (p * p) 1 _ (le_refl _) (Labels.init G) (Sorted.init G order) (by
    refine le_trans (Finset.card_le_univ _) ?_
    simp)
  rw [hO] at hO'
  injection hO' with hO'
  subst hO'
  have hpos : ∀ a b, Edge G a b → 1 ≤ O a b := fun a b hab =>
    ((hlab.rng a b ((hlab.edge a b).2 hab)).resolve_left (hno a b)).1
  exact labelEdges_sound it hac hlab.edge hpos (fun z x y h1 h2 => (hs.target z x y h1 h2 (hpos z x h1)).2) hL

/-- C156: if `dag_to_cpdag` returns for a matrix of any sign, the matrix is a DAG and a consistent extension of the result, which has entries 0 and 1,
and every consistent extension of the result is Markov equivalent to the DAG. -/
theorem C156_cpdag (it : SetIter p) (G C : Adj p) (h : dagToCpdag it G = .ok C) :
    ZeroOne C ∧ IsExtension G C ∧ ∀ H, IsExtension H C → MarkovEquiv G H := by
  have hac : Acyclic G := by
    by_contra hc
    rcases (C153_cyclic it G hc).1 with h' | h' <;> rw [h'] at h <;> cases h
  obtain ⟨-, order, ho, hall, -⟩ := C146_dag_accepted it G hac
  obtain ⟨-, hd, hoe⟩ := orderEdges_dag it hac ho
  unfold dagToCpdag at h
  rw [hoe] at h
  split at h
  · cases h
  · rename_i O hO
    split at h
    · cases h
    · rename_i L hL
      injection h with h
      have hC : C = cpdagOf L := h.symm
      have hext := cpdag_sound_core it hac hall hO hL
      rw [hC]
      exact ⟨cpdagOf_zeroOne L, hext, fun H hH => markov_of_extensions hext hH⟩

/-- C156: the same for doubles, infinities and NaN included, and for any order of the additions. -/
theorem C156_cpdag_float (S : Summer) (it : SetIter p) (G : FAdj p) (C : Adj p) (h : fdagToCpdag S it G = .ok C) :
    ZeroOne C ∧ IsExtension (graphOf G) C ∧ ∀ H, IsExtension H C → MarkovEquiv (graphOf G) H := by
  have hac : Acyclic (graphOf G) := by
    by_contra hc
    rcases (C153_cyclic_float S it G hc).1 with h' | h' <;> rw [h'] at h <;> cases h
  obtain ⟨-, order, ho, hall, -⟩ := C146_float_dag S it G hac
  obtain ⟨-, hd, hoe⟩ := forderEdges_dag S it hac ho
  unfold fdagToCpdag at h
  rw [hoe] at h
  split at h
  · cases h
  · rename_i O hO
    split at h
    · cases h
    · rename_i L hL
      injection h with h
      have hC : C = cpdagOf L := h.symm
      have hext := cpdag_sound_core it hac hall hO hL
      rw [hC]
      exact ⟨cpdagOf_zeroOne L, hext, fun H hH => markov_of_extensions hext hH⟩

theorem icpdagLoop_ext {G : Adj p} (es : List (Fin p × Fin p)) : ∀ P : Adj p, IsExtension G P → (∀ x ∈ es, Edge G x.1 x.2) →
    ∃ P', icpdagLoop es P = .ok P' ∧ (es ≠ [] → MeekClosed P') ∧ ∀ H, IsExtension H P' ↔ IsExtension H P ∧ ∀ x ∈ es, Edge H x.1 x.2 := by
  induction es with
  | nil => exact fun P _ _ => ⟨P, rfl, fun h => absurd rfl h, fun H => by simp⟩
  | cons x es ih =>
    obtain ⟨x, y⟩ := x
    intro P hG hes
    have hxy : Edge G x y := hes (x, y) (by simp)
    have hse := fun H : Adj p => setEntry_ext (H := H) hG hxy
    have hG1 : IsExtension G (setEntry P y x 0) := ((hse G).1).2 ⟨hG, hxy⟩
    obtain ⟨P1, h1, -, h3, h4⟩ := maximallyOrient_spec ⟨G, hG1⟩
    obtain ⟨P', g1, g3, g4⟩ := ih P1 ((h4 G).2 hG1) (fun e he => hes e (by simp [he]))
    refine ⟨P', ?_, fun _ => ?_, fun H => ?_⟩
    · rw [icpdagLoop, h1]
      exact g1
    · by_cases hn : es = []
      · subst hn
        cases g1
        exact h3
      · exact g3 hn
    · rw [g4, h4, (hse H).1, List.forall_mem_cons, and_assoc]

theorem icpdag_ext_core (it : SetIter p) {G C : Adj p} (I : List (Fin p)) (hz : ZeroOne C) (hG : IsExtension G C) :
    ∃ P, icpdagLoop (targetEdges it G I).reverse C = .ok P ∧ isConsistentExtension it G P = .ok true ∧
      (∀ H, IsExtension H P ↔ IsExtension H C ∧ SameParentsAt I.toFinset G H) ∧
      ((∃ i ∈ I, ∃ j, Adjacent G i j) → ∀ i j, Edge P i j ↔ ∃ H, IsExtension H P ∧ Edge H i j) := by
  have hac := hG.1
  obtain ⟨P, h2, h3, h4⟩ := icpdagLoop_ext (G := G) (targetEdges it G I).reverse C hG (by
    intro e he
    rw [List.mem_reverse, mem_targetEdges it G hac] at he
    exact he.1)
  have hext : ∀ H, IsExtension H P ↔ IsExtension H C ∧ SameParentsAt I.toFinset G H := by
    intro H
    rw [h4]
    refine and_congr_right fun hH => ?_
    rw [← targets_iff hac hH.1 (markov_of_extensions hG hH).1 I]
    constructor
    · intro g a b hab hI
      exact g (a, b) (by rw [List.mem_reverse, mem_targetEdges it G hac]; exact ⟨hab, hI⟩)
    · intro g e he
      rw [List.mem_reverse, mem_targetEdges it G hac] at he
      exact g e.1 e.2 he.1 he.2
  have hGP : IsExtension G P := (hext G).2 ⟨hG, fun _ _ _ => Iff.rfl⟩
  have hzP : ZeroOne P := fun a b => by
    rcases (icpdagLoop_entries h2).1 a b with h | h
    · exact .inl h
    · rw [h]
      exact hz a b
  refine ⟨P, h2, ?_, hext, ?_⟩
  · have hs : IsExtension (support G) P := by
      have hm := markovEquiv_support G
      exact ⟨support_acyclic hac, fun i j => (hm.1 i j).symm.trans (hGP.2.1 i j), fun i c j => (hm.2 i c j).symm.trans (hGP.2.2.1 i c j),
        fun i j hij => edge_support.2 (hGP.2.2.2 i j hij)⟩
    obtain ⟨b, hb, hiff⟩ := C12_exact it (support G) P (support_nonneg G) hzP.nonneg (support_acyclic hac)
    have hbt := hiff.2 hs
    subst hbt
    rw [isConsistentExtension_dag it hac, hb]
  · rintro ⟨i, hi, j, hij⟩
    refine edge_iff_ext hGP (h3 fun hn => ?_)
    rw [List.reverse_eq_nil_iff] at hn
    rcases hij with hij | hij
    · have := (mem_targetEdges it G hac I (i, j)).2 ⟨hij, .inl hi⟩
      rw [hn] at this
      cases this
    · have := (mem_targetEdges it G hac I (j, i)).2 ⟨hij, .inr hi⟩
      rw [hn] at this
      cases this

/-- C156: whenever `dag_to_cpdag` returns, `dag_to_icpdag` returns, for a matrix of any sign and all targets.  The consistent extensions of its result
are those of the result of `dag_to_cpdag` in which the targets have the parents they have in the DAG.  If a target has an edge, the result has exactly
the edges of its consistent extensions. -/
theorem C156_icpdag (it : SetIter p) (G C : Adj p) (I : List (Fin p)) (h : dagToCpdag it G = .ok C) :
    ∃ P, dagToIcpdag it G I = .ok P ∧ (∀ H, IsExtension H P ↔ IsExtension H C ∧ SameParentsAt I.toFinset G H) ∧
      ((∃ i ∈ I, ∃ j, Adjacent G i j) → ∀ i j, Edge P i j ↔ ∃ H, IsExtension H P ∧ Edge H i j) := by
  obtain ⟨hz, hG, -⟩ := C156_cpdag it G C h
  obtain ⟨P, h2, h3, h4⟩ := icpdag_ext_core it I hz hG
  refine ⟨P, ?_, h4⟩
  unfold dagToIcpdag
  rw [h]
  dsimp only
  rw [h2]
  dsimp only
  rw [h3]

/-- C156: the same for doubles, infinities and NaN included, and for any order of the additions. -/
theorem C156_icpdag_float (S : Summer) (it : SetIter p) (G : FAdj p) (hA : AllDoubles G) (C : Adj p) (I : List (Fin p)) (h : fdagToCpdag S it G = .ok C) :
    ∃ P, fdagToIcpdag S it G I = .ok P ∧ (∀ H, IsExtension H P ↔ IsExtension H C ∧ SameParentsAt I.toFinset (graphOf G) H) ∧
      ((∃ i ∈ I, ∃ j, Adjacent (graphOf G) i j) → ∀ i j, Edge P i j ↔ ∃ H, IsExtension H P ∧ Edge H i j) := by
  obtain ⟨hz, hG, -⟩ := C156_cpdag_float S it G C h
  obtain ⟨P, h2, h3, h4⟩ := icpdag_ext_core it I hz hG
  refine ⟨P, ?_, h4⟩
  unfold fdagToIcpdag
  rw [h, ftargetEdges_eq]
  dsimp only
  rw [h2]
  dsimp only
  rw [fisConsistentExtension_dag S it hA hG.1, h3]

/-- C156: so the final assertion of `dag_to_icpdag` never fails: the function raises exactly the errors of `dag_to_cpdag`. -/
theorem C156_no_assertion (it : SetIter p) (G : Adj p) (I : List (Fin p)) (err : Err) :
    dagToIcpdag it G I = .error err ↔ dagToCpdag it G = .error err := by
  rcases hC : dagToCpdag it G with err' | C
  · unfold dagToIcpdag
    rw [hC]
  · obtain ⟨P, hP, -⟩ := C156_icpdag it G C I hC
    rw [hP]
    constructor <;> intro h <;> cases h

/-- C156: the same for doubles. -/
theorem C156_no_assertion_float (S : Summer) (it : SetIter p) (G : FAdj p) (hA : AllDoubles G) (I : List (Fin p)) (err : Err) :
    fdagToIcpdag S it G I = .error err ↔ fdagToCpdag S it G = .error err := by
  rcases hC : fdagToCpdag S it G with err' | C
  · unfold fdagToIcpdag
    rw [hC]
  · obtain ⟨P, hP, -⟩ := C156_icpdag_float S it G hA C I hC
    rw [hP]
    constructor <;> intro h <;> cases h

/-- C156: if `mec` returns for a matrix of any sign, the list contains the graph itself (with entries 0 and 1), Markov equivalent DAGs only, and none
of them twice. -/
theorem C156_mec (it : SetIter p) (A : Adj p) (c : Bool) (hp : 0 < p ∨ c = false) (l : List (Adj p)) (h : mec it A c = .ok l) :
    l.Nodup ∧ support A ∈ l ∧ ∀ H ∈ l, ZeroOne H ∧ Acyclic H ∧ MarkovEquiv A H := by
  have hac : Acyclic A := by
    by_contra hc
    rcases (C153_cyclic it A hc).2.2.1 c with h' | h' <;> rw [h'] at h <;> cases h
  have hm := markovEquiv_support A
  by_cases hch : isChainGraph A = true
  · obtain ⟨l', h1, h2, h3⟩ := C24_mec it A (chain_nonneg hch) hac c hp
    rw [h] at h1
    cases h1
    exact ⟨h2, (h3 _).2 ⟨support_zeroOne A, support_acyclic hac, hm⟩, fun H hH => (h3 H).1 hH⟩
  · unfold mec at h
    split at h
    · cases h
    · rw [Bool.not_eq_true] at hch
      simp only [hch, Bool.and_false, Bool.false_eq_true, if_false] at h
      split at h
      · cases h
      · rename_i P hP
        obtain ⟨k1, k2, k4⟩ := C156_cpdag it A P hP
        obtain ⟨l', h1, h2, h3⟩ := allDags_ext it k1 ⟨A, k2⟩
        rw [h] at h1
        cases h1
        refine ⟨h2, (h3 _).2 ⟨support_zeroOne A, support_acyclic hac, fun i j => (hm.1 i j).symm.trans (k2.2.1 i j),
          fun i c j => (hm.2 i c j).symm.trans (k2.2.2.1 i c j), fun i j hij => edge_support.2 (k2.2.2.2 i j hij)⟩, fun H hH => ?_⟩
        obtain ⟨z1, z2⟩ := (h3 H).1 hH
        exact ⟨z1, z2.1, k4 H z2⟩

/-- An example for `C156_cpdag`, `C156_icpdag` and `C156_mec`: the graph with one weight -1 for which the result is wrong, with a target. -/
example (it : SetIter 5) (c : Bool) : dagToCpdag it twoTriangles = .ok twoTrianglesOut ∧ (∃ l, mec it twoTriangles c = .ok l) ∧
    ∃ P, dagToIcpdag it twoTriangles [0] = .ok P ∧ IsExtension twoTriangles P := by
  obtain ⟨-, h, -, -, -, l, hl, -⟩ := C149_wrong_graph it c
  obtain ⟨P, hP, hiff, -⟩ := C156_icpdag it _ _ [0] h
  exact ⟨h, ⟨l, hl⟩, P, hP, (hiff _).2 ⟨(C156_cpdag it _ _ h).2.1, fun _ _ _ => Iff.rfl⟩⟩

/-- An example for `C156_cpdag_float` and `C156_icpdag_float`: any DAG of doubles in which the order of `topological_ordering` points forwards. -/
example (S : Summer) (it : SetIter p) (A : FAdj p) (hA : AllDoubles A) (hac : Acyclic (graphOf A)) (order : List (Fin p))
    (h : ftopologicalOrdering S it A = .ok order) (hf : ∀ a b, Edge (graphOf A) a b → order.idxOf a < order.idxOf b) (I : List (Fin p)) :
    ∃ P, fdagToIcpdag S it A I = .ok P := by
  obtain ⟨-, C, hC, -⟩ := (C149_float_returns_iff S it A hac order h).1 hf
  obtain ⟨P, hP, -⟩ := C156_icpdag_float S it A hA C I hC
  exact ⟨P, hP⟩

end Verif
