import Verif.Proof.Rank

/-!
Undirected graphs with a perfect elimination order: every vertex can be made the first one.
-/

namespace Verif.Chordal
open Finset
variable {α : Type} [DecidableEq α]

/-- the earlier neighbours of every vertex form a clique -/
structure Perfect (U : α → α → Prop) (S : Finset α) (r : α → Nat) : Prop where
  inj : ∀ a ∈ S, ∀ b ∈ S, r a = r b → a = b
  clique : ∀ a ∈ S, ∀ b ∈ S, ∀ c ∈ S, U a c → U b c → r a < r c → r b < r c → a ≠ b → U a b

def Simplicial (U : α → α → Prop) (S : Finset α) (v : α) : Prop :=
  ∀ a ∈ S, ∀ b ∈ S, U a v → U b v → a ≠ b → U a b

def Clique (U : α → α → Prop) (K : Finset α) : Prop := ∀ a ∈ K, ∀ b ∈ K, a ≠ b → U a b

omit [DecidableEq α] in
theorem Perfect.subset {U : α → α → Prop} {S T : Finset α} {r : α → Nat} (h : Perfect U S r) (hT : T ⊆ S) :
    Perfect U T r :=
  ⟨fun a ha b hb => h.inj a (hT ha) b (hT hb),
   fun a ha b hb c hc => h.clique a (hT ha) b (hT hb) c (hT hc)⟩

/-- outside any proper clique there is a simplicial vertex -/
theorem exists_simplicial {U : α → α → Prop} (hsymm : ∀ a b, U a b → U b a) (hirr : ∀ a, ¬ U a a) {r : α → Nat}
    (n : Nat) : ∀ S : Finset α, S.card = n → Perfect U S r → ∀ K ⊆ S, Clique U K → K ≠ S →
      ∃ v ∈ S, v ∉ K ∧ Simplicial U S v := by
  induction n with
  | zero =>
    intro S hS _ K hK _ hne
    rw [card_eq_zero] at hS
    subst hS
    exact absurd (subset_empty.1 hK) hne
  | succ n ih =>
    intro S hS hP K hK hKc hne
    obtain ⟨s, hs, hmax⟩ := exists_max_image S r (by rw [← card_pos]; omega)
    have hlt : ∀ a ∈ S, a ≠ s → r a < r s := fun a ha hne =>
      lt_of_le_of_ne (hmax a ha) (fun h => hne (hP.inj a ha s hs h))
    have hsimp : Simplicial U S s := by
      intro a ha b hb hau hbu hab
      exact hP.clique a ha b hb s hs hau hbu (hlt a ha (fun h => hirr s (h ▸ hau))) (hlt b hb (fun h => hirr s (h ▸ hbu))) hab
    by_cases hsK : s ∈ K
    · classical
      have hcard : (S.erase s).card = n := by rw [card_erase_of_mem hs]; omega
      by_cases hN : (S.erase s).filter (fun a => U a s) = S.erase s
      · have hall : ∀ a ∈ S, a ≠ s → U a s := by
          intro a ha hne
          have : a ∈ S.erase s := mem_erase.2 ⟨hne, ha⟩
          rw [← hN] at this
          exact (mem_filter.1 this).2
        obtain ⟨v, hv, hvK⟩ := Finset.exists_of_ssubset (lt_of_le_of_ne hK hne)
        refine ⟨v, hv, hvK, ?_⟩
        intro a ha b hb _ _ hab
        by_cases has : a = s
        · subst has; exact hsymm _ _ (hall b hb hab.symm)
        · by_cases hbs : b = s
          · subst hbs; exact hall a ha hab
          · exact hsimp a ha b hb (hall a ha has) (hall b hb hbs) hab
      · obtain ⟨v, hv, hvN, hvs⟩ := ih (S.erase s) hcard (hP.subset (erase_subset _ _))
          ((S.erase s).filter (fun a => U a s)) (filter_subset _ _)
          (by
            intro a ha b hb hab
            rw [mem_filter, mem_erase] at ha hb
            exact hsimp a ha.1.2 b hb.1.2 ha.2 hb.2 hab) hN
        have hvS := mem_erase.1 hv
        have hnvs : ¬ U v s := fun h => hvN (mem_filter.2 ⟨hv, h⟩)
        refine ⟨v, hvS.2, ?_, ?_⟩
        · intro hvK
          exact hnvs (hKc v hvK s hsK hvS.1)
        · intro a ha b hb hau hbu hab
          have has : a ≠ s := fun h => hnvs (hsymm _ _ (h ▸ hau))
          have hbs : b ≠ s := fun h => hnvs (hsymm _ _ (h ▸ hbu))
          exact hvs a (mem_erase.2 ⟨has, ha⟩) b (mem_erase.2 ⟨hbs, hb⟩) hau hbu hab
    · exact ⟨s, hs, hsK, hsimp⟩

/-- a perfect order in which the clique `K` comes first, in the order given by `k` -/
theorem exists_perfect_first {U : α → α → Prop} (hsymm : ∀ a b, U a b → U b a) (hirr : ∀ a, ¬ U a a) {r : α → Nat}
    {k : α → Nat} (n : Nat) : ∀ S : Finset α, S.card = n → Perfect U S r → ∀ K ⊆ S, Clique U K →
      (∀ a ∈ K, ∀ b ∈ K, k a = k b → a = b) →
      ∃ r' : α → Nat, Perfect U S r' ∧ (∀ a ∈ K, ∀ v ∈ S, v ∉ K → r' a < r' v) ∧
        (∀ a ∈ K, ∀ b ∈ K, k a < k b → r' a < r' b) := by
  induction n with
  | zero =>
    intro S hS hP K hK _ _
    rw [card_eq_zero] at hS
    subst hS
    have := subset_empty.1 hK
    subst this
    exact ⟨r, hP, by simp, by simp⟩
  | succ n ih =>
    intro S hS hP K hK hKc hk
    by_cases hKS : K = S
    · subst hKS
      refine ⟨k, ⟨hk, ?_⟩, ?_, ?_⟩
      · intro a ha b hb c hc _ _ _ _ hab; exact hKc a ha b hb hab
      · intro a _ v hv hvn; exact absurd hv hvn
      · exact fun a _ b _ h => h
    · obtain ⟨v, hv, hvK, hvs⟩ := exists_simplicial hsymm hirr (n + 1) S hS hP K hK hKc hKS
      obtain ⟨r', hr', h1, h2⟩ := ih (S.erase v) (by rw [card_erase_of_mem hv]; omega) (hP.subset (erase_subset _ _)) K
        (fun a ha => mem_erase.2 ⟨fun h => hvK (h ▸ ha), hK ha⟩) hKc hk
      let N := ∑ a ∈ S, r' a + 1
      have hN : ∀ a ∈ S, r' a < N := by
        intro a ha
        have := single_le_sum (f := r') (fun _ _ => Nat.zero_le _) ha
        omega
      refine ⟨fun a => if a = v then N else r' a, ⟨?_, ?_⟩, ?_, ?_⟩
      · intro a ha b hb hab
        by_cases hav : a = v <;> by_cases hbv : b = v
        · rw [hav, hbv]
        · rw [if_pos hav, if_neg hbv] at hab
          have := hN b hb; omega
        · rw [if_neg hav, if_pos hbv] at hab
          have := hN a ha; omega
        · rw [if_neg hav, if_neg hbv] at hab
          exact hr'.inj a (mem_erase.2 ⟨hav, ha⟩) b (mem_erase.2 ⟨hbv, hb⟩) hab
      · intro a ha b hb c hc hac hbc hra hrb hab
        by_cases hcv : c = v
        · subst hcv
          exact hvs a ha b hb hac hbc hab
        · rw [if_neg hcv] at hra hrb
          by_cases hav : a = v
          · rw [if_pos hav] at hra
            have := hN c hc; omega
          · by_cases hbv : b = v
            · rw [if_pos hbv] at hrb
              have := hN c hc; omega
            · rw [if_neg hav] at hra
              rw [if_neg hbv] at hrb
              exact hr'.clique a (mem_erase.2 ⟨hav, ha⟩) b (mem_erase.2 ⟨hbv, hb⟩) c (mem_erase.2 ⟨hcv, hc⟩) hac hbc hra hrb hab
      · intro a ha w hw hwK
        have hav : a ≠ v := fun h => hvK (h ▸ ha)
        dsimp only
        rw [if_neg hav]
        split
        · exact hN a (hK ha)
        · rename_i hwv
          exact h1 a ha w (mem_erase.2 ⟨hwv, hw⟩) hwK
      · intro a ha b hb hab
        have hav : a ≠ v := fun h => hvK (h ▸ ha)
        have hbv : b ≠ v := fun h => hvK (h ▸ hb)
        dsimp only
        rw [if_neg hav, if_neg hbv]
        exact h2 a ha b hb hab

end Verif.Chordal

namespace Verif
open Spec Chordal
variable {p : Nat}

/-- Data of a DAG `G` whose edges are split into "kept" (`R a b` false) and "free" (`R a b` true) edges, such that
the free part behaves like the undirected part of a chain graph. -/
structure ChainSplit (G : Adj p) (R : Fin p → Fin p → Prop) : Prop where
  acyclic : Acyclic G
  edge : ∀ a b, R a b → Edge G a b
  /-- kept `w → c`, free `c - d` (any orientation) imply kept `w → d` -/
  push : ∀ w c d, Edge G w c → ¬ R w c → (R c d ∨ R d c) → Edge G w d ∧ ¬ R w d
  /-- free edges into the same node have adjacent sources -/
  clique : ∀ a b c, R a c → R b c → a ≠ b → Adjacent G a b

/-- the free edges, in either direction -/
def free (R : Fin p → Fin p → Prop) (a b : Fin p) : Prop := R a b ∨ R b a

theorem ChainSplit.free_irr {G : Adj p} {R : Fin p → Fin p → Prop} (h : ChainSplit G R) (a : Fin p) : ¬ free R a a := by
  intro ha
  have : R a a := by rcases ha with h | h <;> exact h
  exact h.edge a a this (h.acyclic.noLoops a)

/-- any rank of the DAG is a perfect order of the free part -/
theorem ChainSplit.perfect {G : Adj p} {R : Fin p → Fin p → Prop} (h : ChainSplit G R) {r : Fin p → Nat}
    (hrinj : Function.Injective r) (hr : ∀ i j, Edge G i j → r i < r j) : Perfect (free R) Finset.univ r := by
  have hfwd : ∀ a c, free R a c → r a < r c → R a c := by
    intro a c hac hlt
    rcases hac with h1 | h1
    · exact h1
    · have := hr _ _ (h.edge _ _ h1); omega
  refine ⟨fun a _ b _ hab => hrinj hab, ?_⟩
  intro a _ b _ c _ hac hbc hra hrb hab
  have h1 := hfwd a c hac hra
  have h2 := hfwd b c hbc hrb
  rcases h.clique a b c h1 h2 hab with hadj | hadj
  · by_cases hR : R a b
    · exact Or.inl hR
    · exact absurd h1 (h.push a b c hadj hR (Or.inl h2)).2
  · by_cases hR : R b a
    · exact Or.inr hR
    · exact absurd h2 (h.push b a c hadj hR (Or.inl h1)).2

/-- Chain completion: the free edges can be reoriented along any perfect order, keeping acyclicity, skeleton,
v-structures and all kept edges. -/
theorem ChainSplit.combine {G : Adj p} {R : Fin p → Fin p → Prop} (h : ChainSplit G R) {r' : Fin p → Nat}
    (hP : Perfect (free R) Finset.univ r') :
    ∃ H : Adj p, ZeroOne H ∧ Acyclic H ∧ MarkovEquiv G H ∧ (∀ a b, Edge G a b → ¬ R a b → Edge H a b) ∧
      ∀ a b, free R a b → r' a < r' b → Edge H a b := by
  classical
  let U : Fin p → Fin p → Prop := free R
  have hsymm : ∀ a b, U a b → U b a := fun a b h => h.symm
  have hirr : ∀ a, ¬ U a a := h.free_irr
  let D : Fin p → Fin p → Prop := fun a b => Edge G a b ∧ ¬ R a b
  let H : Adj p := fun a b => if D a b ∨ (U a b ∧ r' a < r' b) then 1 else 0
  have hH : ∀ a b, Edge H a b ↔ D a b ∨ (U a b ∧ r' a < r' b) := by
    intro a b
    simp only [Edge, H]
    split <;> simp_all
  have hDU : ∀ a b, D a b → ¬ U a b := by
    rintro a b ⟨h1, h2⟩ (h3 | h3)
    · exact h2 h3
    · exact h.edge _ _ h3 (h.acyclic.no_two h1)
  have hadjU : ∀ a b, U a b → Adjacent G a b := by
    rintro a b (h1 | h1)
    · exact Or.inl (h.edge _ _ h1)
    · exact Or.inr (h.edge _ _ h1)
  have hr'inj : ∀ a b, r' a = r' b → a = b := fun a b hab => hP.inj a (by simp) b (by simp) hab
  have hskel : SameSkeleton G H := by
    intro a b
    constructor
    · intro hab
      have key : ∀ a b, Edge G a b → Adjacent H a b := by
        intro a b hab
        by_cases hR : R a b
        · have hne : r' a ≠ r' b := fun hh => hirr b (by
            have := hr'inj a b hh; subst this; exact Or.inl hR)
          rcases lt_or_gt_of_ne hne with hl | hl
          · exact Or.inl ((hH a b).2 (Or.inr ⟨Or.inl hR, hl⟩))
          · exact Or.inr ((hH b a).2 (Or.inr ⟨Or.inr hR, hl⟩))
        · exact Or.inl ((hH a b).2 (Or.inl ⟨hab, hR⟩))
      rcases hab with h1 | h1
      · exact key a b h1
      · exact (key b a h1).symm
    · have key : ∀ a b, Edge H a b → Adjacent G a b := by
        intro a b hab
        rw [hH] at hab
        rcases hab with h1 | h1
        · exact Or.inl h1.1
        · exact hadjU a b h1.1
      rintro (h1 | h1)
      · exact key a b h1
      · exact (key b a h1).symm
  -- rank: number of kept ancestors, then r'
  let g : Fin p → Nat := fun v => (Finset.univ.filter (fun k => Relation.TransGen D k v)).card
  have hDacyc : ∀ k, ¬ Relation.TransGen D k k := fun k hk =>
    h.acyclic k (Relation.TransGen.mono (fun a b (hab : D a b) => hab.1) k k hk)
  have hgU : ∀ a b, U a b → g a = g b := by
    have key : ∀ a b k, U a b → Relation.TransGen D k a → Relation.TransGen D k b := by
      intro a b k hab hk
      rw [Relation.TransGen.tail'_iff] at hk ⊢
      obtain ⟨m, hkm, hm⟩ := hk
      exact ⟨m, hkm, h.push m a b hm.1 hm.2 hab⟩
    intro a b hab
    have : (Finset.univ.filter (fun k => Relation.TransGen D k a)) = (Finset.univ.filter (fun k => Relation.TransGen D k b)) := by
      ext k
      simp only [Finset.mem_filter, Finset.mem_univ, true_and]
      exact ⟨key a b k hab, key b a k (hsymm _ _ hab)⟩
    simp only [g, this]
  have hgD : ∀ a b, D a b → g a < g b := by
    intro a b hab
    apply Finset.card_lt_card
    rw [Finset.ssubset_iff_of_subset]
    · exact ⟨a, by simpa using Relation.TransGen.single hab, by simpa using hDacyc a⟩
    · intro k hk
      simp only [Finset.mem_filter, Finset.mem_univ, true_and] at hk ⊢
      exact hk.tail hab
  let N := ∑ a, r' a + 1
  have hN : ∀ a, r' a < N := by
    intro a
    have := Finset.single_le_sum (f := r') (fun _ _ => Nat.zero_le _) (Finset.mem_univ a)
    omega
  have hHac : Acyclic H := by
    refine acyclic_of_rank (fun a => g a * N + r' a) ?_
    intro a b hab
    rw [hH] at hab
    rcases hab with h1 | h1
    · have h2 := hgD a b h1
      have h3 : (g a + 1) * N ≤ g b * N := Nat.mul_le_mul_right N h2
      rw [Nat.add_mul] at h3
      have := hN a
      omega
    · rw [hgU a b h1.1]
      omega
  have hpushU : ∀ w c b, D w c → U b c → Adjacent G w b := by
    intro w c b hw hb
    exact Or.inl (h.push w c b hw.1 hw.2 (hb.symm)).1
  refine ⟨H, ?_, hHac, ⟨hskel, ?_⟩, fun a b h1 h2 => (hH a b).2 (Or.inl ⟨h1, h2⟩), ?_⟩
  · intro a b
    simp only [H]
    split <;> simp
  · intro x c y
    constructor
    · rintro ⟨hx, hy, hne, hna⟩
      have side : ∀ x y, Edge G x c → Edge G y c → x ≠ y → ¬ Adjacent G x y → D x c := by
        intro x y hx hy hne hna
        refine ⟨hx, fun hR => hna ?_⟩
        by_cases hRy : R y c
        · exact h.clique x y c hR hRy hne
        · exact (hpushU y c x ⟨hy, hRy⟩ (Or.inl hR)).symm
      have h1 := side x y hx.1 hy.1 hne hna
      have h2 := side y x hy.1 hx.1 hne.symm (fun hh => hna hh.symm)
      have e1 := (hH x c).2 (Or.inl h1)
      have e2 := (hH y c).2 (Or.inl h2)
      exact ⟨⟨e1, hHac.no_two e1⟩, ⟨e2, hHac.no_two e2⟩, hne, by rw [← hskel]; exact hna⟩
    · rintro ⟨hx, hy, hne, hna⟩
      rw [← hskel] at hna
      have side : ∀ x y, Edge H x c → Edge H y c → x ≠ y → ¬ Adjacent G x y → D x c := by
        intro x y hx hy hne hna
        rw [hH] at hx hy
        rcases hx with hx | hx
        · exact hx
        · exfalso
          rcases hy with hy | hy
          · exact hna (hpushU y c x hy hx.1).symm
          · exact hna (hadjU x y (hP.clique x (by simp) y (by simp) c (by simp) hx.1 hy.1 hx.2 hy.2 hne))
      have h1 := side x y hx.1 hy.1 hne hna
      have h2 := side y x hy.1 hx.1 hne.symm (fun hh => hna hh.symm)
      exact ⟨⟨h1.1, h.acyclic.no_two h1.1⟩, ⟨h2.1, h.acyclic.no_two h2.1⟩, hne, hna⟩
  · intro a b hab hlt
    rw [hH]
    exact Or.inr ⟨hab, hlt⟩

/-- the free edges can be reoriented so that any prescribed vertex `d` points towards all its free neighbours -/
theorem ChainSplit.reorient {G : Adj p} {R : Fin p → Fin p → Prop} (h : ChainSplit G R) (d : Fin p) :
    ∃ H : Adj p, ZeroOne H ∧ Acyclic H ∧ MarkovEquiv G H ∧ (∀ a b, Edge G a b → ¬ R a b → Edge H a b) ∧
      ∀ c, (R c d ∨ R d c) → Edge H d c := by
  obtain ⟨r, hrinj, hr⟩ := h.acyclic.exists_inj_rank
  obtain ⟨r', hP, hfirst, -⟩ := exists_perfect_first (k := fun _ => 0) (U := free R) (fun a b h => h.symm) h.free_irr p
    Finset.univ (by simp) (h.perfect hrinj hr) {d}
    (by simp) (by intro a ha b hb hab; simp at ha hb; exact absurd (ha.trans hb.symm) hab)
    (by intro a ha b hb _; simp at ha hb; exact ha.trans hb.symm)
  obtain ⟨H, h1, h2, h3, h4, h5⟩ := h.combine hP
  refine ⟨H, h1, h2, h3, h4, fun c hc => h5 d c hc.symm (hfirst d (by simp) c (by simp) ?_)⟩
  rw [Finset.mem_singleton]
  rintro rfl
  exact h.free_irr c hc

end Verif
