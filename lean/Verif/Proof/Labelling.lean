import Verif.Proof.Chordal

/-!
Chickering's labelling, abstractly: a labelling of the edges of a DAG that satisfies the per-node recurrence marks
exactly the compelled edges.
-/

namespace Verif
open Spec
variable {p : Nat}

/-- `x` is the latest parent of `y` in the order `pos` -/
def LatestParent (G : Adj p) (pos : Fin p → Nat) (x y : Fin p) : Prop :=
  Edge G x y ∧ ∀ z, Edge G z y → pos z ≤ pos x

/-- the per-node recurrence computed by `label_edges` (1: compelled, -1: reversible) -/
structure Labelling (G : Adj p) (pos : Fin p → Nat) (L : Adj p) : Prop where
  inj : Function.Injective pos
  topo : ∀ a b, Edge G a b → pos a < pos b
  zero : ∀ a b, ¬ Edge G a b → L a b = 0
  vals : ∀ a b, Edge G a b → L a b = 1 ∨ L a b = -1
  caseA : ∀ x y, LatestParent G pos x y → (∃ w, L w x = 1 ∧ ¬ Edge G w y) → ∀ z, Edge G z y → L z y = 1
  caseB : ∀ x y, LatestParent G pos x y → (∃ z, Edge G z y ∧ z ≠ x ∧ ¬ Edge G z x) → ∀ z, Edge G z y → L z y = 1
  caseC : ∀ x y, LatestParent G pos x y → (∀ w, L w x = 1 → Edge G w y) →
    (∀ z, Edge G z y → z ≠ x → Edge G z x) → ∀ z, Edge G z y → (L z y = 1 ↔ L z x = 1)

theorem exists_latestParent {G : Adj p} (pos : Fin p → Nat) {y z : Fin p} (h : Edge G z y) :
    ∃ x, LatestParent G pos x y := by
  obtain ⟨x, hx, hmax⟩ := Finset.exists_max_image (Finset.univ.filter (fun z => Edge G z y)) pos ⟨z, by simpa using h⟩
  simp only [Finset.mem_filter, Finset.mem_univ, true_and] at hx hmax
  exact ⟨x, hx, hmax⟩

namespace Labelling
variable {G : Adj p} {pos : Fin p → Nat} {L : Adj p}

theorem acyclic (h : Labelling G pos L) : Acyclic G := acyclic_of_rank pos h.topo

theorem edge_of_com (h : Labelling G pos L) {a b : Fin p} (hab : L a b = 1) : Edge G a b := by
  by_contra hc
  rw [h.zero a b hc] at hab
  exact absurd hab (by decide)

theorem edge_of_rev (h : Labelling G pos L) {a b : Fin p} (hab : L a b = -1) : Edge G a b := by
  by_contra hc
  rw [h.zero a b hc] at hab
  exact absurd hab (by decide)

/-- the three cases for a node with a parent -/
theorem cases (h : Labelling G pos L) {x y : Fin p} (hx : LatestParent G pos x y) :
    ((∃ w, L w x = 1 ∧ ¬ Edge G w y) ∧ ∀ z, Edge G z y → L z y = 1) ∨
    ((∃ z, Edge G z y ∧ z ≠ x ∧ ¬ Edge G z x) ∧ ∀ z, Edge G z y → L z y = 1) ∨
    ((∀ w, L w x = 1 → Edge G w y) ∧ (∀ z, Edge G z y → z ≠ x → Edge G z x) ∧ (∀ w, L w y = 1 ↔ L w x = 1)) := by
  by_cases hA : ∃ w, L w x = 1 ∧ ¬ Edge G w y
  · exact Or.inl ⟨hA, h.caseA x y hx hA⟩
  · by_cases hB : ∃ z, Edge G z y ∧ z ≠ x ∧ ¬ Edge G z x
    · exact Or.inr (Or.inl ⟨hB, h.caseB x y hx hB⟩)
    · push Not at hA hB
      refine Or.inr (Or.inr ⟨hA, hB, fun w => ?_⟩)
      constructor
      · intro hw; exact (h.caseC x y hx hA hB w (h.edge_of_com hw)).1 hw
      · intro hw; exact (h.caseC x y hx hA hB w (hA w hw)).2 hw

/-- P2: the ends of a reversible edge have the same compelled parents -/
theorem com_iff_of_rev (h : Labelling G pos L) : ∀ n, ∀ c d, pos d = n → L c d = -1 → ∀ w, L w c = 1 ↔ L w d = 1 := by
  intro n
  induction n using Nat.strong_induction_on with
  | _ n ih =>
    intro c d hn hcd
    have hE := h.edge_of_rev hcd
    obtain ⟨x, hx⟩ := exists_latestParent pos hE
    rcases h.cases hx with ⟨_, hall⟩ | ⟨_, hall⟩ | ⟨hA, hB, hC⟩
    · have := hall c hE; rw [this] at hcd; exact absurd hcd (by decide)
    · have := hall c hE; rw [this] at hcd; exact absurd hcd (by decide)
    · by_cases hcx : c = x
      · subst hcx; exact fun w => (hC w).symm
      · have hEcx := hB c hE hcx
        have hrev : L c x = -1 := by
          rcases h.vals c x hEcx with h1 | h1
          · rw [← hC c, hcd] at h1; exact absurd h1 (by decide)
          · exact h1
        intro w
        rw [ih (pos x) (hn ▸ h.topo x d hx.1) c x rfl hrev w, hC w]

/-- P3: edges of v-structures are compelled -/
theorem com_of_vstructure (h : Labelling G pos L) : ∀ n, ∀ a c b, pos c = n → VStructure G a c b → L a c = 1 := by
  intro n
  induction n using Nat.strong_induction_on with
  | _ n ih =>
    intro a c b hn hv
    obtain ⟨ha, hb, hne, hna⟩ := hv
    obtain ⟨x, hx⟩ := exists_latestParent pos ha.1
    rcases h.cases hx with ⟨_, hall⟩ | ⟨_, hall⟩ | ⟨hA, hB, hC⟩
    · exact hall a ha.1
    · exact hall a ha.1
    · have hax : a ≠ x := by
        rintro rfl
        exact hna (Or.inr (hB b hb.1 hne.symm))
      have hbx : b ≠ x := by
        rintro rfl
        exact hna (Or.inl (hB a ha.1 hne))
      have e1 := hB a ha.1 hax
      have e2 := hB b hb.1 hbx
      rw [hC a]
      exact ih (pos x) (hn ▸ h.topo x c hx.1) a x b rfl
        ⟨⟨e1, h.acyclic.no_two e1⟩, ⟨e2, h.acyclic.no_two e2⟩, hne, hna⟩

/-- the node at which the compelled parents of `y` were decided -/
theorem source (h : Labelling G pos L) : ∀ n, ∀ y, pos y = n →
    ∃ v, pos v ≤ pos y ∧ (∀ w, L w y = 1 ↔ Edge G w v) ∧ (∀ u, Edge G u y → Edge G u v ∨ pos v ≤ pos u) ∧
      ((∀ w, ¬ Edge G w v) ∨ ∃ x, LatestParent G pos x v ∧ ((∃ w, L w x = 1 ∧ ¬ Edge G w v) ∨
        (∃ z, Edge G z v ∧ z ≠ x ∧ ¬ Edge G z x))) := by
  intro n
  induction n using Nat.strong_induction_on with
  | _ n ih =>
    intro y hn
    by_cases hpar : ∃ z, Edge G z y
    · obtain ⟨z, hz⟩ := hpar
      obtain ⟨x, hx⟩ := exists_latestParent pos hz
      rcases h.cases hx with ⟨hA, hall⟩ | ⟨hB, hall⟩ | ⟨hA, hB, hC⟩
      · exact ⟨y, le_refl _, fun w => ⟨fun hw => h.edge_of_com hw, hall w⟩, fun u hu => Or.inl hu, Or.inr ⟨x, hx, Or.inl hA⟩⟩
      · exact ⟨y, le_refl _, fun w => ⟨fun hw => h.edge_of_com hw, hall w⟩, fun u hu => Or.inl hu, Or.inr ⟨x, hx, Or.inr hB⟩⟩
      · have hlt := h.topo x y hx.1
        obtain ⟨v, hv1, hv2, hv3, hv4⟩ := ih (pos x) (hn ▸ hlt) x rfl
        refine ⟨v, by omega, fun w => by rw [hC w, hv2 w], ?_, hv4⟩
        intro u hu
        by_cases hux : u = x
        · subst hux; exact Or.inr hv1
        · exact hv3 u (hB u hu hux)
    · push Not at hpar
      exact ⟨y, le_refl _, fun w => ⟨fun hw => h.edge_of_com hw, fun hw => absurd hw (hpar w)⟩, fun u hu => Or.inl hu, Or.inl hpar⟩

/-- compelled edges are in every equivalent DAG -/
theorem compelled (h : Labelling G pos L) {H : Adj p} (hH : Acyclic H) (hskel : SameSkeleton G H)
    (hvs : SameVStructures G H) : ∀ n, ∀ y, pos y = n → ∀ u, L u y = 1 → Edge H u y := by
  intro n
  induction n using Nat.strong_induction_on with
  | _ n ih =>
    intro y hn u hu
    obtain ⟨v, hv1, hv2, hv3, hv4⟩ := h.source n y hn
    have hG2 : ∀ {a b}, Edge G a b → DirEdge G a b := fun hab => ⟨hab, h.acyclic.no_two hab⟩
    have hH2 : ∀ {a b}, Edge H a b → DirEdge H a b := fun hab => ⟨hab, hH.no_two hab⟩
    have hvH : ∀ {a c b}, Edge G a c → Edge G b c → a ≠ b → ¬ Adjacent G a b → Edge H a c ∧ Edge H b c := by
      intro a c b h1 h2 h3 h4
      have := (hvs a c b).1 ⟨hG2 h1, hG2 h2, h3, h4⟩
      exact ⟨this.1.1, this.2.1.1⟩
    have hvG : ∀ {a c b}, Edge H a c → Edge H b c → a ≠ b → ¬ Adjacent G a b → Edge G a c ∧ Edge G b c := by
      intro a c b h1 h2 h3 h4
      have := (hvs a c b).2 ⟨hH2 h1, hH2 h2, h3, by rw [← hskel]; exact h4⟩
      exact ⟨this.1.1, this.2.1.1⟩
    -- an adjacent pair is oriented one way in H
    have hori : ∀ {a b}, Adjacent G a b → ¬ Edge H b a → Edge H a b := by
      intro a b h1 h2
      exact ((hskel a b).1 h1).resolve_right h2
    -- transitivity on adjacent pairs
    have htrans : ∀ {a b c}, Edge H a b → Edge H b c → Adjacent G a c → Edge H a c := by
      intro a b c h1 h2 h3
      apply hori h3
      intro h4
      exact hH a (((Relation.TransGen.single h1).tail h2).tail h4)
    have hpay : ∀ {w}, Edge G w v → Edge G w y := fun hw => h.edge_of_com ((hv2 _).2 hw)
    have huv : Edge G u v := (hv2 u).1 hu
    have huy : Edge G u y := hpay huv
    rcases hv4 with hnone | ⟨x, hx, hcase⟩
    · exact absurd huv (hnone u)
    · have hxv := hx.1
      have hxy := hpay hxv
      have hposx : pos x < pos v := h.topo x v hxv
      -- if another parent `u` of `v` is nonadjacent to `x` it is part of a v-structure
      have hux_adj : ¬ Edge H u y → u ≠ x → Adjacent G u x := by
        intro hn1 hn2
        by_contra hna
        exact hn1 (hvH huy hxy hn2 hna).1
      have hux_dir : u ≠ x → Adjacent G u x → Edge G u x := by
        intro hne hadj
        rcases hadj with h1 | h1
        · exact h1
        · have h2 := h.topo x u h1
          have h3 := hx.2 u huv
          omega
      rcases hcase with ⟨w, hw, hwv⟩ | ⟨z, hz, hzx, hznx⟩
      · have hwx := h.edge_of_com hw
        have hwx' := h.topo w x hwx
        have hwy : ¬ Adjacent G w y := by
          rintro (h1 | h1)
          · rcases hv3 w h1 with h2 | h2
            · exact hwv h2
            · omega
          · have := h.topo y w h1; omega
        have hwney : w ≠ y := by rintro rfl; omega
        have hwxH : Edge H w x := ih (pos x) (by have := h.topo x y hxy; omega) x rfl w hw
        have hxyH : Edge H x y := by
          apply hori (Or.inl hxy)
          intro hyx
          have := (hvG hwxH hyx hwney hwy).2
          have h2 := h.topo y x this
          have h3 := h.topo x y hxy
          omega
        by_cases hux : u = x
        · subst hux; exact hxyH
        · apply hori (Or.inl huy)
          intro hyu
          have hnuy : ¬ Edge H u y := fun h1 => by
            have := hH.no_two h1; exact hyu this
          have hadj := hux_adj hnuy hux
          have hEux := hux_dir hux hadj
          have hxuH : Edge H x u := htrans hxyH hyu (hadj.symm)
          have hwu : Adjacent G w u := by
            by_contra hna
            have hne : w ≠ u := by
              rintro rfl
              exact hwy (Or.inl huy)
            have := (hvH hwx hEux hne hna).2
            exact hxuH (hH.no_two this)
          have hwuH : Edge H w u := htrans hwxH hxuH hwu
          have := (hvG hwuH hyu hwney hwy).2
          have h2 := h.topo y u this
          have h3 := h.topo u y huy
          omega
      · have hzy := hpay hz
        have hzxna : ¬ Adjacent G z x := by
          rintro (h1 | h1)
          · exact hznx h1
          · have h2 := h.topo x z h1
            have h3 := hx.2 z hz
            omega
        obtain ⟨hzyH, hxyH⟩ := hvH hzy hxy hzx hzxna
        by_cases hux : u = x
        · subst hux; exact hxyH
        by_cases huz : u = z
        · subst huz; exact hzyH
        · apply hori (Or.inl huy)
          intro hyu
          have hnuy : ¬ Edge H u y := fun h1 => by
            have := hH.no_two h1; exact hyu this
          have hadj := hux_adj hnuy hux
          have hadjz : Adjacent G u z := by
            by_contra hna
            exact hnuy (hvH huy hzy huz hna).1
          have hxu := htrans hxyH hyu hadj.symm
          have hzu := htrans hzyH hyu hadjz.symm
          have := (hvG hzu hxu hzx hzxna).2
          have h2 := h.topo x u this
          have h3 := hx.2 u huv
          omega

/-- the reversible edges form the free part of a chain split -/
theorem chainSplit (h : Labelling G pos L) : ChainSplit G (fun a b => L a b = -1) where
  acyclic := h.acyclic
  edge := fun _ _ hab => h.edge_of_rev hab
  push := by
    intro w c d hwc hnw hcd
    have hcom : L w c = 1 := (h.vals w c hwc).resolve_right hnw
    have : L w d = 1 := by
      rcases hcd with h1 | h1
      · exact (h.com_iff_of_rev (pos d) c d rfl h1 w).1 hcom
      · exact (h.com_iff_of_rev (pos c) d c rfl h1 w).2 hcom
    refine ⟨h.edge_of_com this, ?_⟩
    rw [this]; decide
  clique := by
    intro a b c ha hb hne
    by_contra hna
    have e1 := h.edge_of_rev ha
    have e2 := h.edge_of_rev hb
    have := h.com_of_vstructure (pos c) a c b rfl ⟨⟨e1, h.acyclic.no_two e1⟩, ⟨e2, h.acyclic.no_two e2⟩, hne, hna⟩
    rw [this] at ha
    exact absurd ha (by decide)

end Labelling
end Verif
