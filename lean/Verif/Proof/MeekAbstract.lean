import Verif.Proof.Chordal

/-!
Completeness of the orientation rules on a graph with a perfect elimination order: an undirected edge of a rule-closed
graph can be oriented both ways.
-/

namespace Verif.MeekAbs
open Finset Chordal
variable {α : Type} [DecidableEq α]

/-- directed part `D`, undirected part `U`, closed under R1, R2 and R4, with a consistent perfect order `r` -/
structure Closed (D U : α → α → Prop) (r : α → Nat) : Prop where
  symm : ∀ a b, U a b → U b a
  irr : ∀ a, ¬ U a a
  excl : ∀ a b, D a b → ¬ U a b
  rank : ∀ a b, D a b → r a < r b
  inj : Function.Injective r
  clique : ∀ a b c, (D a c ∨ D c a ∨ U a c) → (D b c ∨ D c b ∨ U b c) → r a < r c → r b < r c → a ≠ b →
    (D a b ∨ D b a ∨ U a b)
  r1 : ∀ k i j, D k i → U i j → (D k j ∨ D j k ∨ U k j)
  r2 : ∀ i k j, D i k → D k j → ¬ U i j
  r4 : ∀ i j k h, U i k → U i h → D h k → D k j → U i j → (D h j ∨ D j h ∨ U h j)

section
variable {D U : α → α → Prop} {r : α → Nat}

def A (D U : α → α → Prop) (a b : α) : Prop := D a b ∨ D b a ∨ U a b

omit [DecidableEq α] in
theorem Closed.A_symm (h : Closed D U r) {a b : α} (hab : A D U a b) : A D U b a := by
  rcases hab with h1 | h1 | h1
  · exact Or.inr (Or.inl h1)
  · exact Or.inl h1
  · exact Or.inr (Or.inr (h.symm _ _ h1))

omit [DecidableEq α] in
theorem Closed.rank_path (h : Closed D U r) {a b : α} (hab : Relation.TransGen D a b) : r a < r b := by
  induction hab with
  | single h1 => exact h.rank _ _ h1
  | tail _ h1 ih => exact lt_trans ih (h.rank _ _ h1)

omit [DecidableEq α] in
/-- no directed path joins the ends of an undirected edge -/
theorem Closed.no_path (h : Closed D U r) {a b : α} (hab : Relation.TransGen D a b) : ¬ U a b := by
  induction hab with
  | single h1 => exact h.excl _ _ h1
  | @tail c b h1 h2 ih =>
    intro hU
    have := h.r1 c b a h2 (h.symm _ _ hU)
    rcases this with h3 | h3 | h3
    · have h4 := h.rank_path h1
      have h5 := h.rank _ _ h3
      omega
    · exact h.r2 a c b h3 h2 hU
    · exact ih (h.symm _ _ h3)

/-- a node that may be made the last one of `S` -/
structure PotSink (D U : α → α → Prop) (S : Finset α) (s : α) : Prop where
  mem : s ∈ S
  child : ∀ x ∈ S, ¬ D s x
  clique : ∀ y ∈ S, U s y → ∀ t ∈ S, A D U s t → t ≠ y → A D U t y

omit [DecidableEq α] in
theorem Closed.potSink_last (h : Closed D U r) {S : Finset α} {v : α} (hv : v ∈ S) (hmax : ∀ x ∈ S, r x ≤ r v) :
    PotSink D U S v := by
  refine ⟨hv, fun x hx hD => ?_, ?_⟩
  · have := h.rank _ _ hD; have := hmax x hx; omega
  · intro y hy hU t ht hA hne
    have hlt : ∀ x ∈ S, A D U v x → r x < r v := by
      intro x hx hA
      rcases lt_or_eq_of_le (hmax x hx) with h1 | h1
      · exact h1
      · have := h.inj h1
        subst this
        rcases hA with h2 | h2 | h2
        · have := h.rank _ _ h2; omega
        · have := h.rank _ _ h2; omega
        · exact absurd h2 (h.irr _)
    exact h.clique t y v (h.A_symm hA) (h.A_symm (Or.inr (Or.inr hU))) (hlt t ht hA) (hlt y hy (Or.inr (Or.inr hU))) hne

/-- reachability inside `S` -/
def Reach (D : α → α → Prop) (S : Finset α) : α → α → Prop := Relation.ReflTransGen (fun a b => D a b ∧ b ∈ S)

omit [DecidableEq α] in
theorem Reach.path {S : Finset α} {a b : α} (hab : Reach D S a b) : Relation.ReflTransGen D a b := by
  induction hab with
  | refl => exact Relation.ReflTransGen.refl
  | tail _ h1 ih => exact ih.tail h1.1

omit [DecidableEq α] in
theorem le_sum_of_mem {S : Finset α} (f : α → Nat) {x : α} (hx : x ∈ S) : f x ≤ S.sum f :=
  Finset.single_le_sum (f := f) (fun _ _ => Nat.zero_le _) hx

theorem Closed.exists_potSink (h : Closed D U r) (n : Nat) : ∀ S : Finset α, S.card = n → ∀ K ⊆ S,
    (∀ a ∈ K, ∀ b ∈ K, a ≠ b → A D U a b) → ∀ W ⊆ S, W.Nonempty → (∀ w ∈ W, w ∉ K) →
    (∀ w ∈ W, ∀ x ∈ S, D w x → x ∈ W) → ∃ s, PotSink D U S s ∧ s ∉ K := by
  classical
  induction n with
  | zero =>
    intro S hS K _ _ W hW hWne _ _
    rw [Finset.card_eq_zero] at hS
    subst hS
    obtain ⟨w, hw⟩ := hWne
    exact absurd (hW hw) (by simp)
  | succ n ih =>
    intro S hS K hK hKcl W hW hWne hWK hWcl
    obtain ⟨v, hv, hmax⟩ := Finset.exists_max_image S r (by
      rw [← Finset.card_pos]; omega)
    by_cases hvK : v ∈ K
    swap
    · exact ⟨v, h.potSink_last hv hmax, hvK⟩
    have hvsink := h.potSink_last hv hmax
    let S' := S.erase v
    let K' := S'.filter (fun x => A D U v x)
    have hS'card : S'.card = n := by simp [S', hv, hS]
    have hK' : ∀ a ∈ K', ∀ b ∈ K', a ≠ b → A D U a b := by
      intro a ha b hb hab
      simp only [K', S', mem_filter, mem_erase] at ha hb
      have hlt : ∀ x, x ≠ v → x ∈ S → r x < r v := by
        intro x hx hxS
        refine lt_of_le_of_ne (hmax x hxS) (fun hc => hx (h.inj hc))
      exact h.clique a b v (h.A_symm ha.2) (h.A_symm hb.2) (hlt a ha.1.1 ha.1.2) (hlt b hb.1.1 hb.1.2) hab
    by_cases hex : ∃ w ∈ S', w ∉ K' ∧ ∀ x, Reach D S' w x → x ∉ K'
    · -- some node cannot reach the neighbours of v
      obtain ⟨w, hw, hwK', hreach⟩ := hex
      obtain ⟨s, hs, hsK'⟩ := ih S' hS'card K' (filter_subset _ _) hK' (S'.filter (fun x => Reach D S' w x))
        (filter_subset _ _) ⟨w, by simp only [mem_filter]; exact ⟨hw, Relation.ReflTransGen.refl⟩⟩
        (by intro x hx; simp only [mem_filter] at hx; exact hreach x hx.2)
        (by
          intro x hx y hy hD
          simp only [mem_filter] at hx ⊢
          exact ⟨hy, hx.2.tail ⟨hD, hy⟩⟩)
      have hsS := (mem_erase.1 hs.mem)
      have hsv : ¬ A D U v s := fun hA => hsK' (mem_filter.2 ⟨hs.mem, hA⟩)
      refine ⟨s, ⟨hsS.2, ?_, ?_⟩, ?_⟩
      · intro x hx hD
        by_cases hxv : x = v
        · subst hxv; exact hsv (Or.inr (Or.inl hD))
        · exact hs.child x (mem_erase.2 ⟨hxv, hx⟩) hD
      · intro y hy hUy t ht hAt hne
        have hyv : y ≠ v := by
          rintro rfl; exact hsv (Or.inr (Or.inr (h.symm _ _ hUy)))
        have htv : t ≠ v := by
          rintro rfl; exact hsv (h.A_symm hAt)
        exact hs.clique y (mem_erase.2 ⟨hyv, hy⟩) hUy t (mem_erase.2 ⟨htv, ht⟩) hAt hne
      · intro hsK
        exact hsv (hKcl v hvK s hsK (fun hc => hsS.1 hc.symm))
    · push Not at hex
      -- every node outside the neighbourhood of v reaches it through an entry edge u → x → v
      have hentry : ∀ w ∈ S, w ≠ v → ¬ A D U v w → ∃ u x, Reach D S' w u ∧ u ∈ S' ∧ ¬ A D U v u ∧ D u x ∧ x ∈ S' ∧
          A D U v x ∧ D x v := by
        intro w hw hwv hwA
        have hwS' : w ∈ S' := mem_erase.2 ⟨hwv, hw⟩
        obtain ⟨x, hx, hxK⟩ := hex w hwS' (fun hc => hwA (mem_filter.1 hc).2)
        have : ∃ u x, Reach D S' w u ∧ u ∈ S' ∧ ¬ A D U v u ∧ D u x ∧ x ∈ S' ∧ A D U v x := by
          clear hex
          induction hx with
          | refl => exact absurd (mem_filter.1 hxK).2 hwA
          | @tail b c hb hbc ihb =>
            by_cases hbK : b ∈ K'
            · exact ihb hbK
            · have hbS' : b ∈ S' := by
                rcases Relation.ReflTransGen.cases_tail hb with h1 | ⟨_, _, h1⟩
                · subst h1; exact hwS'
                · exact h1.2
              exact ⟨b, c, hb, hbS', fun hc => hbK (mem_filter.2 ⟨hbS', hc⟩), hbc.1, hbc.2, (mem_filter.1 hxK).2⟩
        obtain ⟨u, x, h1, h2, h3, h4, h5, h6⟩ := this
        refine ⟨u, x, h1, h2, h3, h4, h5, h6, ?_⟩
        rcases h6 with h7 | h7 | h7
        · exact absurd h7 (hvsink.child x (mem_erase.1 h5).2)
        · exact h7
        · exact absurd (h.A_symm (h.r1 u x v h4 (h.symm _ _ h7))) h3
      have hWreach : ∀ w ∈ W, ∀ u, Reach D S' w u → u ∈ W := by
        intro w hw u hu
        induction hu with
        | refl => exact hw
        | tail _ hbc ihb => exact hWcl _ ihb _ (mem_erase.1 hbc.2).2 hbc.1
      have hvW : v ∉ W := fun hc => hWK v hc hvK
      have hWU : ∀ w ∈ W, U w v := by
        intro w hw
        have hwv : w ≠ v := by rintro rfl; exact hvW hw
        by_cases hA : A D U v w
        · rcases hA with h1 | h1 | h1
          · exact absurd h1 (hvsink.child w (hW hw))
          · exact absurd (hWcl w hw v hv h1) hvW
          · exact h.symm _ _ h1
        · obtain ⟨u, x, h1, h2, h3, h4, h5, h6, h7⟩ := hentry w (hW hw) hwv hA
          have hu := hWreach w hw u h1
          have hx := hWcl u hu x (mem_erase.1 h5).2 h4
          exact absurd (hWcl x hx v hv h7) hvW
      obtain ⟨m, hm, hmmax⟩ := Finset.exists_max_image W r hWne
      have hmv := hWU m hm
      have hmne : m ≠ v := by rintro rfl; exact hvW hm
      have hmchild : ∀ x ∈ S, ¬ D m x := by
        intro x hx hD
        have h1 := hmmax x (hWcl m hm x hx hD)
        have h2 := h.rank _ _ hD
        omega
      have hlt : ∀ x, x ≠ v → x ∈ S → r x < r v := by
        intro x hx hxS
        exact lt_of_le_of_ne (hmax x hxS) (fun hc => hx (h.inj hc))
      -- undirected neighbours of m are neighbours of v
      have hnb : ∀ y ∈ S, U m y → y = v ∨ A D U v y := by
        intro y hy hU
        by_contra hc
        push Not at hc
        obtain ⟨u, x, h1, h2, h3, h4, h5, h6, h7⟩ := hentry y hy hc.1 hc.2
        have hxm : x ≠ m := by rintro rfl; exact h.excl _ _ h7 hmv
        have hxS := mem_erase.1 h5
        have hDxm : D x m := by
          rcases h.clique x m v (h.A_symm h6) (Or.inr (Or.inr hmv)) (hlt x hxS.1 hxS.2) (hlt m hmne (hW hm)) hxm with h8 | h8 | h8
          · exact h8
          · exact absurd h8 (hmchild x hxS.2)
          · exfalso
            rcases h.r1 u x m h4 h8 with h9 | h9 | h9
            · exact h3 (h.A_symm (h.r1 u m v h9 hmv))
            · exact hmchild u (mem_erase.1 h2).2 h9
            · exact h3 (h.A_symm (h.r4 m v x u (h.symm _ _ h8) (h.symm _ _ h9) h4 h7 hmv))
        have hpath : Relation.TransGen D y m := by
          have h8 : Relation.ReflTransGen D y u := h1.path
          exact ((Relation.TransGen.tail' h8 h4).tail hDxm)
        exact h.no_path hpath (h.symm _ _ hU)
      refine ⟨m, ⟨hW hm, hmchild, ?_⟩, hWK m hm⟩
      intro y hy hU t ht hA hne
      rcases hA with h1 | h1 | h1
      · exact absurd h1 (hmchild t ht)
      · exact h.r1 t m y h1 hU
      · rcases hnb y hy hU with rfl | hyA
        · rcases hnb t ht h1 with rfl | htA
          · exact absurd rfl hne
          · exact h.A_symm htA
        · rcases hnb t ht h1 with rfl | htA
          · exact hyA
          · have hyv : y ≠ v := by
              rintro rfl
              rcases hyA with h2 | h2 | h2
              · have := h.rank _ _ h2; omega
              · have := h.rank _ _ h2; omega
              · exact h.irr _ h2
            have htv : t ≠ v := by
              rintro rfl
              rcases htA with h2 | h2 | h2
              · have := h.rank _ _ h2; omega
              · have := h.rank _ _ h2; omega
              · exact h.irr _ h2
            exact h.clique t y v (h.A_symm htA) (h.A_symm hyA) (hlt t htv ht) (hlt y hyv hy) hne

/-- a perfect order of `S` consistent with the directed part -/
structure Order (D U : α → α → Prop) (S : Finset α) (r' : α → Nat) : Prop where
  perfect : Perfect (A D U) S r'
  dir : ∀ a ∈ S, ∀ b ∈ S, D a b → r' a < r' b

omit [DecidableEq α] in
theorem Closed.order (h : Closed D U r) (S : Finset α) : Order D U S r :=
  ⟨⟨fun _ _ _ _ hab => h.inj hab, fun a _ b _ c _ => h.clique a b c⟩, fun a _ b _ => h.rank a b⟩

/-- put a potential sink last -/
theorem Order.addSink (h : Closed D U r) {S : Finset α} {s : α} (hs : PotSink D U S s) {r' : α → Nat}
    (ho : Order D U (S.erase s) r') :
    Order D U S (fun x => if x = s then (S.sum r') + 1 else r' x) := by
  have hle : ∀ x ∈ S, r' x < S.sum r' + 1 := by
    intro x hx
    have := le_sum_of_mem r' hx
    omega
  refine ⟨⟨?_, ?_⟩, ?_⟩
  · intro a ha b hb hab
    by_cases h1 : a = s <;> by_cases h2 : b = s
    · rw [h1, h2]
    · have := hle b hb; simp [h1, h2] at hab; omega
    · have := hle a ha; simp [h1, h2] at hab; omega
    · simp [h1, h2] at hab
      exact ho.perfect.inj a (mem_erase.2 ⟨h1, ha⟩) b (mem_erase.2 ⟨h2, hb⟩) hab
  · intro a ha b hb c hc hac hbc hra hrb hab
    by_cases h3 : c = s
    · subst h3
      rcases hac with h1 | h1 | h1
      · rcases hbc with h2 | h2 | h2
        · exact h.clique a b c (Or.inl h1) (Or.inl h2) (h.rank _ _ h1) (h.rank _ _ h2) hab
        · exact absurd h2 (hs.child b hb)
        · exact hs.clique b hb (h.symm _ _ h2) a ha (Or.inr (Or.inl h1)) hab
      · exact absurd h1 (hs.child a ha)
      · exact h.A_symm (hs.clique a ha (h.symm _ _ h1) b hb (h.A_symm hbc) hab.symm)
    · have h1 : a ≠ s := by
        rintro rfl
        have := hle c hc
        simp [h3] at hra; omega
      have h2 : b ≠ s := by
        rintro rfl
        have := hle c hc
        simp [h3] at hrb; omega
      simp only [h1, h2, h3, if_false] at hra hrb
      exact ho.perfect.clique a (mem_erase.2 ⟨h1, ha⟩) b (mem_erase.2 ⟨h2, hb⟩) c (mem_erase.2 ⟨h3, hc⟩) hac hbc hra hrb hab
  · intro a ha b hb hD
    have h1 : a ≠ s := by rintro rfl; exact hs.child b hb hD
    by_cases h2 : b = s
    · simp [h1, h2]; exact hle a ha
    · simp only [h1, h2, if_false]
      exact ho.dir a (mem_erase.2 ⟨h1, ha⟩) b (mem_erase.2 ⟨h2, hb⟩) hD

/-- every undirected edge can be oriented both ways -/
theorem Closed.complete (h : Closed D U r) (n : Nat) : ∀ S : Finset α, S.card = n → ∀ a ∈ S, ∀ b ∈ S, U a b →
    ∃ r', Order D U S r' ∧ r' a < r' b := by
  classical
  induction n with
  | zero =>
    intro S hS a ha
    rw [Finset.card_eq_zero] at hS
    subst hS
    simp at ha
  | succ n ih =>
    intro S hS a ha b hb hab
    have hne : a ≠ b := by rintro rfl; exact h.irr _ hab
    obtain ⟨s, hs, hsa⟩ := h.exists_potSink (n + 1) S hS {a} (by simpa using ha)
      (by intro x hx y hy hxy; simp at hx hy; exact absurd (hx.trans hy.symm) hxy)
      (S.filter (fun x => Reach D S b x)) (filter_subset _ _)
      ⟨b, by simp only [mem_filter]; exact ⟨hb, Relation.ReflTransGen.refl⟩⟩
      (by
        intro w hw
        simp only [mem_filter, mem_singleton] at hw ⊢
        rintro rfl
        have h1 : Relation.ReflTransGen D b w := hw.2.path
        rcases Relation.reflTransGen_iff_eq_or_transGen.1 h1 with h2 | h2
        · exact hne h2
        · exact h.no_path h2 (h.symm _ _ hab))
      (by
        intro x hx y hy hD
        simp only [mem_filter] at hx ⊢
        exact ⟨hy, hx.2.tail ⟨hD, hy⟩⟩)
    have hsa' : s ≠ a := by simpa using hsa
    by_cases hsb : s = b
    · subst hsb
      refine ⟨_, Order.addSink h hs (h.order _), ?_⟩
      have := le_sum_of_mem r ha
      simp only [hne, if_false, if_true]
      omega
    · obtain ⟨r', ho, hlt⟩ := ih (S.erase s) (by simp [hs.mem, hS]) a (mem_erase.2 ⟨fun hc => hsa' hc.symm, ha⟩) b
        (mem_erase.2 ⟨fun hc => hsb hc.symm, hb⟩) hab
      refine ⟨_, Order.addSink h hs ho, ?_⟩
      simp [Ne.symm hsa', Ne.symm hsb, hlt]

end
end Verif.MeekAbs
