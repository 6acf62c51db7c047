import Verif.Spec.DSep
import Verif.Proof.Covered

/-!
# d-separation: walks, reversal of covered edges, separation of nodes that are not adjacent
-/

namespace Verif

open Spec

variable {p : Nat} {V : Type}

/-- Walks from `a` that are active given `Z` (colliders in `Z`, other interior nodes not in `Z`; repetitions are allowed).  The mark
of the last node is `true` if the last edge points to it. -/
inductive Reach (E : V → V → Prop) (Z : Finset V) (a : V) : V → Bool → Prop
  | start : Reach E Z a a false
  | out {v w : V} {m : Bool} : Reach E Z a v m → v ∉ Z → E v w → Reach E Z a w true
  | back {v w : V} : Reach E Z a v false → v ∉ Z → E w v → Reach E Z a w false
  | coll {v w : V} : Reach E Z a v true → v ∈ Z → E w v → Reach E Z a w false

theorem acyclic_no_two {E : V → V → Prop} (h : ∀ i, ¬ Relation.TransGen E i i) {a b : V} (h1 : E a b) (h2 : E b a) : False :=
  h a (Relation.TransGen.tail (Relation.TransGen.single h1) h2)

/-- An active sequence of nodes, possibly with repetitions. -/
structure ActiveWalk (E : V → V → Prop) (Z : Finset V) (n : Nat) (w : Nat → V) : Prop where
  adj : ∀ i < n, E (w i) (w (i + 1)) ∨ E (w (i + 1)) (w i)
  collider : ∀ i, i + 1 < n → E (w i) (w (i + 1)) → E (w (i + 2)) (w (i + 1)) →
    ∃ z ∈ Z, Relation.ReflTransGen E (w (i + 1)) z
  other : ∀ i, i + 1 < n → ¬ (E (w i) (w (i + 1)) ∧ E (w (i + 2)) (w (i + 1))) → w (i + 1) ∉ Z

theorem ActiveWalk.snoc {E : V → V → Prop} {Z : Finset V} {n : Nat} {w : Nat → V} (h : ActiveWalk E Z n w) (c : V)
    (hadj : E (w n) c ∨ E c (w n))
    (h1 : ∀ k, n = k + 1 → E (w k) (w n) → E c (w n) → ∃ z ∈ Z, Relation.ReflTransGen E (w n) z)
    (h2 : ∀ k, n = k + 1 → ¬ (E (w k) (w n) ∧ E c (w n)) → w n ∉ Z) :
    ActiveWalk E Z (n + 1) (fun i => if i ≤ n then w i else c) := by
  constructor
  · intro i hi
    rw [if_pos (by omega : i ≤ n)]
    by_cases h3 : i + 1 ≤ n
    · rw [if_pos h3]
      exact h.adj i (by omega)
    · rw [if_neg h3]
      obtain rfl : i = n := by omega
      exact hadj
  · intro i hi
    rw [if_pos (by omega : i ≤ n), if_pos (by omega : i + 1 ≤ n)]
    by_cases h3 : i + 2 ≤ n
    · rw [if_pos h3]
      exact h.collider i (by omega)
    · rw [if_neg h3]
      obtain rfl : n = i + 1 := by omega
      exact h1 i rfl
  · intro i hi
    rw [if_pos (by omega : i ≤ n), if_pos (by omega : i + 1 ≤ n)]
    by_cases h3 : i + 2 ≤ n
    · rw [if_pos h3]
      exact h.other i (by omega)
    · rw [if_neg h3]
      obtain rfl : n = i + 1 := by omega
      exact h2 i rfl

/-- A walk of `Reach` as a sequence of nodes. -/
theorem Reach.walk {E : V → V → Prop} {Z : Finset V} {a : V} (hac : ∀ i, ¬ Relation.TransGen E i i) {b : V} {m : Bool} (h : Reach E Z a b m) :
    ∃ n w, w 0 = a ∧ w n = b ∧ ActiveWalk E Z n w ∧ (m = true → ∃ k, n = k + 1 ∧ E (w k) (w n)) ∧
      (m = false → ∀ k, n = k + 1 → E (w n) (w k)) := by
  induction h with
  | start =>
    exact ⟨0, fun _ => a, rfl, rfl, ⟨fun i hi => by omega, fun i hi => by omega, fun i hi => by omega⟩, by simp,
      fun _ k hk => by omega⟩
  | @out v c m _ hv hvc ih =>
    obtain ⟨n, w, h0, hn, hw, hm1, hm2⟩ := ih
    refine ⟨n + 1, _, ?_, ?_, hw.snoc c (Or.inl (hn ▸ hvc)) ?_ ?_, ?_, by simp⟩
    · simpa using h0
    · simp
    · intro k _ _ h2
      rw [hn] at h2
      exact (acyclic_no_two hac hvc h2).elim
    · intro k _ _
      rw [hn]
      exact hv
    · intro _
      refine ⟨n, rfl, ?_⟩
      rw [if_pos le_rfl, if_neg (by omega), hn]
      exact hvc
  | @back v c _ hv hcv ih =>
    obtain ⟨n, w, h0, hn, hw, hm1, hm2⟩ := ih
    refine ⟨n + 1, _, ?_, ?_, hw.snoc c (Or.inr (hn ▸ hcv)) ?_ ?_, by simp, ?_⟩
    · simpa using h0
    · simp
    · intro k hk h1 _
      exact (acyclic_no_two hac h1 (hm2 rfl k hk)).elim
    · intro k _ _
      rw [hn]
      exact hv
    · intro _ k hk
      obtain rfl : k = n := by omega
      rw [if_pos le_rfl, if_neg (by omega), hn]
      exact hcv
  | @coll v c _ hv hcv ih =>
    obtain ⟨n, w, h0, hn, hw, hm1, hm2⟩ := ih
    refine ⟨n + 1, _, ?_, ?_, hw.snoc c (Or.inr (hn ▸ hcv)) ?_ ?_, by simp, ?_⟩
    · simpa using h0
    · simp
    · intro k _ _ _
      rw [hn]
      exact ⟨v, hv, Relation.ReflTransGen.refl⟩
    · intro k hk h1
      obtain ⟨k', hk', h2⟩ := hm1 rfl
      obtain rfl : k = k' := by omega
      rw [hn] at h1 h2
      exact absurd ⟨h2, hcv⟩ h1
    · intro _ k hk
      obtain rfl : k = n := by omega
      rw [if_pos le_rfl, if_neg (by omega), hn]
      exact hcv

/-- Following an active walk in the direction of the arrows one meets a collider, or the walk is directed. -/
theorem ActiveWalk.forward {E : V → V → Prop} {Z : Finset V} {n : Nat} {w : Nat → V} (h : ActiveWalk E Z n w) {s : Nat}
    (he : E (w s) (w (s + 1))) :
    ∀ t, s < t → t ≤ n → (∃ z ∈ Z, Relation.ReflTransGen E (w s) z) ∨
      (Relation.TransGen E (w s) (w t) ∧ E (w (t - 1)) (w t)) := by
  intro t
  induction t with
  | zero => intro h0; omega
  | succ t ih =>
    intro hst htn
    by_cases h0 : s = t
    · subst h0
      exact Or.inr ⟨Relation.TransGen.single he, he⟩
    · rcases ih (by omega) (by omega) with h1 | ⟨h1, h2⟩
      · exact Or.inl h1
      · obtain ⟨r, rfl⟩ : ∃ r, t = r + 1 := ⟨t - 1, by omega⟩
        rw [Nat.add_sub_cancel] at h2
        rcases h.adj (r + 1) (by omega) with h3 | h3
        · exact Or.inr ⟨h1.tail h3, h3⟩
        · obtain ⟨z, hz, h4⟩ := h.collider r (by omega) h2 h3
          exact Or.inl ⟨z, hz, h1.to_reflTransGen.trans h4⟩

/-- Cutting out the part of an active walk between two visits of the same node. -/
theorem ActiveWalk.cut {E : V → V → Prop} {Z : Finset V} {n : Nat} {w : Nat → V} (hac : ∀ i, ¬ Relation.TransGen E i i) (h : ActiveWalk E Z n w)
    {s t : Nat} (hst : s < t) (htn : t ≤ n) (heq : w s = w t) :
    ActiveWalk E Z (n - (t - s)) (fun i => if i ≤ s then w i else w (i + (t - s))) := by
  have key : ∀ i, i + 1 = s → t + 1 ≤ n →
      (E (w i) (w s) → E (w (t + 1)) (w s) → ∃ z ∈ Z, Relation.ReflTransGen E (w s) z) ∧
      (¬ (E (w i) (w s) ∧ E (w (t + 1)) (w s)) → w s ∉ Z) := by
    intro i hi ht
    subst hi
    constructor
    · intro h1 h2
      rcases h.adj (i + 1) (by omega) with h3 | h3
      · rcases h.forward h3 t hst htn with h4 | h4
        · exact h4
        · rw [← heq] at h4
          exact absurd h4.1 (hac _)
      · exact h.collider i (by omega) h1 h3
    · intro h1
      by_cases h2 : E (w i) (w (i + 1))
      · have h3 : ¬ E (w (t + 1)) (w t) := by
          rw [← heq]
          exact fun h3 => h1 ⟨h2, h3⟩
        obtain ⟨r, rfl⟩ : ∃ r, t = r + 1 := ⟨t - 1, by omega⟩
        rw [heq]
        exact h.other r (by omega) (fun h4 => h3 h4.2)
      · exact h.other i (by omega) (fun h4 => h2 h4.1)
  have hidx : ∀ i, (if i + 1 ≤ s then w (i + 1) else w (i + 1 + (t - s))) = if i < s then w (i + 1) else w (i + 1 + (t - s)) :=
    fun i => by simp only [Nat.succ_le_iff]
  constructor
  · intro i hi
    by_cases h1 : i + 1 ≤ s
    · rw [if_pos (by omega), if_pos h1]
      exact h.adj i (by omega)
    · rw [if_neg h1]
      by_cases h2 : i ≤ s
      · obtain rfl : i = s := by omega
        rw [if_pos le_rfl, heq, show i + 1 + (t - i) = t + 1 by omega]
        exact h.adj t (by omega)
      · rw [if_neg h2, show i + 1 + (t - s) = (i + (t - s)) + 1 by omega]
        exact h.adj _ (by omega)
  · intro i hi
    by_cases h1 : i + 2 ≤ s
    · rw [if_pos (by omega), if_pos (by omega), if_pos h1]
      exact h.collider i (by omega)
    · rw [if_neg h1]
      by_cases h2 : i + 1 ≤ s
      · obtain rfl : s = i + 1 := by omega
        rw [if_pos (by omega), if_pos le_rfl, show i + 2 + (t - (i + 1)) = t + 1 by omega]
        exact (key i rfl (by omega)).1
      · rw [if_neg h2]
        by_cases h3 : i ≤ s
        · obtain rfl : i = s := by omega
          rw [if_pos le_rfl, heq, show i + 1 + (t - i) = t + 1 by omega, show i + 2 + (t - i) = t + 2 by omega]
          exact h.collider t (by omega)
        · rw [if_neg h3, show i + 1 + (t - s) = (i + (t - s)) + 1 by omega, show i + 2 + (t - s) = (i + (t - s)) + 2 by omega]
          exact h.collider _ (by omega)
  · intro i hi
    by_cases h1 : i + 2 ≤ s
    · rw [if_pos (by omega), if_pos (by omega), if_pos h1]
      exact h.other i (by omega)
    · rw [if_neg h1]
      by_cases h2 : i + 1 ≤ s
      · obtain rfl : s = i + 1 := by omega
        rw [if_pos (by omega), if_pos le_rfl, show i + 2 + (t - (i + 1)) = t + 1 by omega]
        exact (key i rfl (by omega)).2
      · rw [if_neg h2]
        by_cases h3 : i ≤ s
        · obtain rfl : i = s := by omega
          rw [if_pos le_rfl, heq, show i + 1 + (t - i) = t + 1 by omega, show i + 2 + (t - i) = t + 2 by omega]
          exact h.other t (by omega)
        · rw [if_neg h3, show i + 1 + (t - s) = (i + (t - s)) + 1 by omega, show i + 2 + (t - s) = (i + (t - s)) + 2 by omega]
          exact h.other _ (by omega)

/-- A shortest active walk is a path. -/
theorem ActiveWalk.dconnected {E : V → V → Prop} {Z : Finset V} (hac : ∀ i, ¬ Relation.TransGen E i i) {a b : V} :
    ∀ (n : Nat) (w : Nat → V), w 0 = a → w n = b → ActiveWalk E Z n w → DConnected E Z a b := by
  intro n
  induction n using Nat.strong_induction_on with
  | _ n ih =>
    intro w h0 hn hw
    by_cases hinj : Set.InjOn w (Set.Iic n)
    · exact ⟨n, w, h0, hn, hinj, hw.adj, hw.collider, hw.other⟩
    · have : ∃ s t, s < t ∧ t ≤ n ∧ w s = w t := by
        unfold Set.InjOn at hinj
        push Not at hinj
        obtain ⟨s, hs, t, ht, h1, h2⟩ := hinj
        rw [Set.mem_Iic] at hs ht
        rcases Nat.lt_or_gt_of_ne h2 with h3 | h3
        · exact ⟨s, t, h3, ht, h1⟩
        · exact ⟨t, s, h3, hs, h1.symm⟩
      obtain ⟨s, t, hst, htn, heq⟩ := this
      refine ih (n - (t - s)) (by omega) _ ?_ ?_ (hw.cut hac hst htn heq)
      · simpa using h0
      · by_cases h1 : n - (t - s) ≤ s
        · rw [if_pos h1]
          have : t = n := by omega
          subst this
          rw [show t - (t - s) = s by omega, heq, hn]
        · rw [if_neg h1, show n - (t - s) + (t - s) = n by omega, hn]

theorem Reach.descend {E : V → V → Prop} {Z : Finset V} {a v z : V} (hz : z ∈ Z) (h : Relation.ReflTransGen E v z) :
    Reach E Z a v true → ∀ c, E c v → Reach E Z a c false := by
  induction h using Relation.ReflTransGen.head_induction_on with
  | refl => exact fun h c hc => h.coll hz hc
  | @head v v' h1 _ ih =>
    intro h c hc
    by_cases hv : v ∈ Z
    · exact h.coll hv hc
    · exact (ih (h.out hv h1) v h1).back hv hc

/-- d-connection by paths is the same as by the walks of `Reach`. -/
theorem dconnected_iff {E : V → V → Prop} {Z : Finset V} (hac : ∀ i, ¬ Relation.TransGen E i i) {a b : V} (ha : a ∉ Z) :
    DConnected E Z a b ↔ ∃ m, Reach E Z a b m := by
  constructor
  · rintro ⟨n, w, h0, hn, hw⟩
    have key : ∀ i, i ≤ n → ∃ m, Reach E Z a (w i) m ∧ (i = 0 → m = false) ∧
        ∀ k, i = k + 1 → (m = true → E (w k) (w i)) ∧ (m = false → E (w i) (w k)) := by
      intro i
      induction i with
      | zero => exact fun _ => ⟨false, h0 ▸ Reach.start, fun _ => rfl, fun k hk => by omega⟩
      | succ i ih =>
        intro hi
        obtain ⟨m, h1, h2, h3⟩ := ih (by omega)
        have hout : ¬ (∃ k, i = k + 1 ∧ E (w k) (w i) ∧ E (w (i + 1)) (w i)) → w i ∉ Z := by
          intro h4
          cases i with
          | zero => rw [h0]; exact ha
          | succ k => exact hw.other k (by omega) (fun h5 => h4 ⟨k, rfl, h5⟩)
        rcases hw.adj i (by omega) with h4 | h4
        · refine ⟨true, h1.out (hout ?_) h4, by simp, fun k hk => ?_⟩
          · rintro ⟨k, _, _, h5⟩
            exact acyclic_no_two hac h4 h5
          · obtain rfl : k = i := by omega
            exact ⟨fun _ => h4, by simp⟩
        · refine ⟨false, ?_, by simp, fun k hk => ?_⟩
          · cases m with
            | false =>
              refine h1.back (hout ?_) h4
              rintro ⟨k, hk, h5, _⟩
              exact acyclic_no_two hac h5 ((h3 k hk).2 rfl)
            | true =>
              obtain ⟨k, rfl⟩ : ∃ k, i = k + 1 := by
                cases i with
                | zero => simp at h2
                | succ k => exact ⟨k, rfl⟩
              obtain ⟨z, hz, h5⟩ := hw.collider k (by omega) ((h3 k rfl).1 rfl) h4
              exact Reach.descend hz h5 h1 _ h4
          · obtain rfl : k = i := by omega
            exact ⟨by simp, fun _ => h4⟩
    obtain ⟨m, h1, _⟩ := key n le_rfl
    exact ⟨m, hn ▸ h1⟩
  · rintro ⟨m, h⟩
    obtain ⟨n, w, h0, hn, hw, _⟩ := h.walk hac
    exact hw.dconnected hac n w h0 hn

theorem Spec.ActivePath.walk {E : V → V → Prop} {Z : Finset V} {n : Nat} {w : Nat → V} (h : ActivePath E Z n w) : ActiveWalk E Z n w :=
  ⟨h.adj, h.collider, h.other⟩

theorem Spec.DConnected.symm {E : V → V → Prop} {Z : Finset V} {a b : V} (h : DConnected E Z a b) : DConnected E Z b a := by
  obtain ⟨n, w, h0, hn, hw⟩ := h
  refine ⟨n, fun i => w (n - i), by simpa using hn, by simpa using h0, ?_, ?_, ?_, ?_⟩
  · intro i hi j hj hij
    rw [Set.mem_Iic] at hi hj
    have := hw.inj (Set.mem_Iic.2 (Nat.sub_le n i)) (Set.mem_Iic.2 (Nat.sub_le n j)) hij
    omega
  · intro i hi
    have := hw.adj (n - (i + 1)) (by omega)
    rw [show n - (i + 1) + 1 = n - i by omega] at this
    exact this.symm
  · intro i hi h1 h2
    have := hw.collider (n - (i + 2)) (by omega)
    rw [show n - (i + 2) + 1 = n - (i + 1) by omega, show n - (i + 2) + 2 = n - i by omega] at this
    exact this h2 h1
  · intro i hi h1
    have := hw.other (n - (i + 2)) (by omega)
    rw [show n - (i + 2) + 1 = n - (i + 1) by omega, show n - (i + 2) + 2 = n - i by omega] at this
    exact this (fun h2 => h1 ⟨h2.2, h2.1⟩)

theorem Reach.congr {E E' : V → V → Prop} {Z : Finset V} {a v : V} {m : Bool} (hGH : ∀ i j, E i j → E' i j)
    (h : Reach E Z a v m) : Reach E' Z a v m := by
  induction h with
  | start => exact Reach.start
  | out _ hv he ih => exact ih.out hv (hGH _ _ he)
  | back _ hv he ih => exact ih.back hv (hGH _ _ he)
  | coll _ hv he ih => exact ih.coll hv (hGH _ _ he)

/-! ### Reversal of a covered edge -/

/-- What is left in the graph with the reversed edge of a walk that is active before. -/
def ReachInv (G' : Adj p) (Z : Finset (Fin p)) (a x y v : Fin p) (m : Bool) : Prop :=
  if v = x then
    if m = true then Reach (Edge G') Z a x true ∧ Reach (Edge G') Z a y true
    else Reach (Edge G') Z a x false ∨ Reach (Edge G') Z a x true ∧ (Reach (Edge G') Z a y false ∧ y ∉ Z ∨ Reach (Edge G') Z a y true ∧ y ∈ Z)
  else if v = y then
    if m = true then (Reach (Edge G') Z a y true ∧ Reach (Edge G') Z a x true) ∨
      Reach (Edge G') Z a y false ∧ (Reach (Edge G') Z a x false ∧ x ∉ Z ∨ y ∉ Z)
    else Reach (Edge G') Z a y false
  else Reach (Edge G') Z a v m

theorem ReachInv.reach {G' : Adj p} {Z : Finset (Fin p)} {a x y v : Fin p} {m : Bool} (h : ReachInv G' Z a x y v m) :
    ∃ m', Reach (Edge G') Z a v m' := by
  unfold ReachInv at h
  split_ifs at h with h1 h2 h3 h4
  · subst h1
    exact ⟨_, h.1⟩
  · subst h1
    rcases h with h | h
    · exact ⟨_, h⟩
    · exact ⟨_, h.1⟩
  · subst h3
    rcases h with h | h
    · exact ⟨_, h.1⟩
    · exact ⟨_, h.1⟩
  · subst h3
    exact ⟨_, h⟩
  · exact ⟨_, h⟩

theorem reach_reverse {G : Adj p} {Z : Finset (Fin p)} {a x y : Fin p} (hac : Acyclic G) (hc : Covered G x y) {v : Fin p} {m : Bool}
    (h : Reach (Edge G) Z a v m) : ReachInv (reverseEdge G x y) Z a x y v m := by
  have hxy : x ≠ y := hc.ne hac
  have hyx : y ≠ x := hxy.symm
  have e0 : Edge (reverseEdge G x y) y x := by
    rw [edge_reverse]
    exact ⟨fun h => hyx h.1, Or.inl ⟨rfl, rfl⟩⟩
  have eo : ∀ c d, Edge G c d → ¬ (c = x ∧ d = y) → Edge (reverseEdge G x y) c d := by
    intro c d h1 h2
    rw [edge_reverse]
    exact ⟨h2, Or.inr h1⟩
  have noyx : ¬ Edge G y x := fun h => acyclic_no_two hac hc.1 h
  have loop : ∀ c, ¬ Edge G c c := fun c h => hac c (Relation.TransGen.single h)
  induction h with
  | start =>
    unfold ReachInv
    split_ifs with h1 h2 h3 h4
    · cases h2
    · exact Or.inl (h1 ▸ Reach.start)
    · cases h4
    · exact h3 ▸ Reach.start
    · exact Reach.start
  | @out v w m _ hv hvw ih =>
    obtain ⟨m', hr⟩ := ih.reach
    by_cases hvx : v = x
    · subst hvx
      by_cases hwy : w = y
      · subst hwy
        unfold ReachInv at ih ⊢
        rw [if_neg hyx, if_pos rfl, if_pos rfl]
        rw [if_pos rfl] at ih
        split_ifs at ih with hm
        · exact Or.inl ⟨ih.2, ih.1⟩
        · rcases ih with ih | ⟨ih, ⟨h1, h2⟩ | ⟨h1, h2⟩⟩
          · exact Or.inr ⟨ih.back hv e0, Or.inl ⟨ih, hv⟩⟩
          · exact Or.inr ⟨h1, Or.inr h2⟩
          · exact Or.inl ⟨h1, ih⟩
      · have hwx : w ≠ v := fun h => loop v (h ▸ hvw)
        unfold ReachInv
        rw [if_neg hwx, if_neg hwy]
        exact hr.out hv (eo _ _ hvw (fun h => hwy h.2))
    · by_cases hwx : w = x
      · subst hwx
        have hvy : v ≠ y := by
          rintro rfl
          exact noyx hvw
        unfold ReachInv
        rw [if_pos rfl, if_pos rfl]
        exact ⟨hr.out hv (eo _ _ hvw (fun h => hvx h.1)), hr.out hv (eo _ _ ((hc.2 v hvx).2 hvw) (fun h => hvx h.1))⟩
      · by_cases hwy : w = y
        · subst hwy
          unfold ReachInv
          rw [if_neg hwx, if_pos rfl, if_pos rfl]
          exact Or.inl ⟨hr.out hv (eo _ _ hvw (fun h => hvx h.1)),
            hr.out hv (eo _ _ ((hc.2 v hvx).1 hvw) (fun h => hvx h.1))⟩
        · unfold ReachInv
          rw [if_neg hwx, if_neg hwy]
          exact hr.out hv (eo _ _ hvw (fun h => hvx h.1))
  | @back v w _ hv hwv ih =>
    by_cases hvx : v = x
    · subst hvx
      have hwx : w ≠ v := fun h => loop v (h ▸ hwv)
      have hwy : w ≠ y := by
        rintro rfl
        exact noyx hwv
      unfold ReachInv at ih ⊢
      rw [if_neg hwx, if_neg hwy]
      rw [if_pos rfl, if_neg (by simp)] at ih
      rcases ih with ih | ⟨_, ⟨h1, h2⟩ | ⟨h1, h2⟩⟩
      · exact ih.back hv (eo _ _ hwv (fun h => hwx h.1))
      · exact h1.back h2 (eo _ _ ((hc.2 w hwx).2 hwv) (fun h => hwx h.1))
      · exact h1.coll h2 (eo _ _ ((hc.2 w hwx).2 hwv) (fun h => hwx h.1))
    · by_cases hvy : v = y
      · subst hvy
        unfold ReachInv at ih
        rw [if_neg hvx, if_pos rfl, if_neg (by simp)] at ih
        by_cases hwx : w = x
        · subst hwx
          unfold ReachInv
          rw [if_pos rfl, if_neg (by simp)]
          exact Or.inr ⟨ih.out hv e0, Or.inl ⟨ih, hv⟩⟩
        · have hwy : w ≠ v := fun h => loop v (h ▸ hwv)
          unfold ReachInv
          rw [if_neg hwx, if_neg hwy]
          exact ih.back hv (eo _ _ hwv (fun h => hwx h.1))
      · unfold ReachInv at ih
        rw [if_neg hvx, if_neg hvy] at ih
        have := ih.back hv (eo _ _ hwv (fun h => hvy h.2))
        unfold ReachInv
        split_ifs with h1 h2 h3 h4
        · cases h2
        · exact Or.inl (h1 ▸ this)
        · cases h4
        · exact h3 ▸ this
        · exact this
  | @coll v w _ hv hwv ih =>
    by_cases hvx : v = x
    · subst hvx
      have hwx : w ≠ v := fun h => loop v (h ▸ hwv)
      have hwy : w ≠ y := by
        rintro rfl
        exact noyx hwv
      unfold ReachInv at ih ⊢
      rw [if_neg hwx, if_neg hwy]
      rw [if_pos rfl, if_pos rfl] at ih
      exact ih.1.coll hv (eo _ _ hwv (fun h => hwx h.1))
    · by_cases hvy : v = y
      · subst hvy
        unfold ReachInv at ih
        rw [if_neg hvx, if_pos rfl, if_pos rfl] at ih
        by_cases hwx : w = x
        · subst hwx
          unfold ReachInv
          rw [if_pos rfl, if_neg (by simp)]
          rcases ih with ih | ⟨_, h1 | h1⟩
          · exact Or.inr ⟨ih.2, Or.inr ⟨ih.1, hv⟩⟩
          · exact Or.inl h1.1
          · exact absurd hv h1
        · have hwy : w ≠ v := fun h => loop v (h ▸ hwv)
          unfold ReachInv
          rw [if_neg hwx, if_neg hwy]
          rcases ih with ih | ⟨_, h1 | h1⟩
          · exact ih.1.coll hv (eo _ _ hwv (fun h => hwx h.1))
          · exact h1.1.back h1.2 (eo _ _ ((hc.2 w hwx).1 hwv) (fun h => hwx h.1))
          · exact absurd hv h1
      · unfold ReachInv at ih
        rw [if_neg hvx, if_neg hvy] at ih
        have := ih.coll hv (eo _ _ hwv (fun h => hvy h.2))
        unfold ReachInv
        split_ifs with h1 h2 h3 h4
        · cases h2
        · exact Or.inl (h1 ▸ this)
        · cases h4
        · exact h3 ▸ this
        · exact this

open Classical in
theorem reach_equiv {H : Adj p} (hH : Acyclic H) {Z : Finset (Fin p)} {a b : Fin p} (n : Nat) : ∀ {G : Adj p}, Acyclic G →
    MarkovEquiv G H → (Finset.univ.filter (fun q : Fin p × Fin p => Edge G q.1 q.2 ∧ ¬ Edge H q.1 q.2)).card = n →
    (∃ m, Reach (Edge G) Z a b m) → ∃ m, Reach (Edge H) Z a b m := by
  induction n using Nat.strong_induction_on with
  | _ n ih =>
    intro G hG hm hn hr
    by_cases hd : ∃ c d, Edge G c d ∧ ¬ Edge H c d
    · obtain ⟨x, y, hc, hyx⟩ := exists_covered hG hH hm hd
      have hxy := hc.ne hG
      obtain ⟨m, hr⟩ := hr
      refine ih _ ?_ (acyclic_reverse hG hc) (markov_trans (markov_reverse hG hc) hm) rfl (reach_reverse hG hc hr).reach
      rw [← hn]
      refine Finset.card_lt_card ?_
      rw [Finset.ssubset_iff_of_subset]
      · refine ⟨(x, y), ?_, ?_⟩
        · rw [Finset.mem_filter]
          exact ⟨Finset.mem_univ _, hc.1, fun h => acyclic_no_two hH h hyx⟩
        · rw [Finset.mem_filter]
          rintro ⟨_, h1, _⟩
          rw [edge_reverse] at h1
          exact h1.1 ⟨rfl, rfl⟩
      · rintro ⟨c, d⟩ hcd
        rw [Finset.mem_filter] at hcd ⊢
        obtain ⟨_, h1, h2⟩ := hcd
        rw [edge_reverse] at h1
        refine ⟨Finset.mem_univ _, ?_, h2⟩
        rcases h1.2 with ⟨rfl, rfl⟩ | h3
        · exact absurd hyx h2
        · exact h3
    · push Not at hd
      obtain ⟨m, hr⟩ := hr
      exact ⟨m, hr.congr hd⟩

/-- Markov equivalent DAGs have the same d-separations. -/
theorem sameDSep_of_markovEquiv {G H : Adj p} (hG : Acyclic G) (hH : Acyclic H) (h : MarkovEquiv G H) : SameDSep G H := by
  classical
  intro a b Z _ ha _
  unfold DSeparated
  rw [dconnected_iff hG ha, dconnected_iff hH ha, not_iff_not]
  exact ⟨reach_equiv hH _ hG h rfl, reach_equiv hG _ hH (markov_symm h) rfl⟩

/-! ### Separation -/

/-- Two nodes that are joined are never d-separated. -/
theorem dconnected_of_adjacent {G : Adj p} {Z : Finset (Fin p)} {a b : Fin p} (hab : a ≠ b) (h : Adjacent G a b) : DConnected (Edge G) Z a b := by
  refine ⟨1, fun i => if i = 0 then a else b, rfl, rfl, ?_, ?_, ?_, ?_⟩
  · intro i hi j hj hij
    rw [Set.mem_Iic] at hi hj
    dsimp only at hij
    split_ifs at hij with h1 h2 h2
    · omega
    · exact absurd hij hab
    · exact absurd hij.symm hab
    · omega
  · intro i hi
    obtain rfl : i = 0 := by omega
    exact h
  · intro i hi; omega
  · intro i hi; omega

/-- A node is separated by its parents from every node that is neither joined to it nor among its descendants. -/
theorem dseparated_parents {G : Adj p} (hac : Acyclic G) {a b : Fin p} (hab : a ≠ b) (hnadj : ¬ Adjacent G a b)
    (hnd : ¬ Relation.TransGen (Edge G) b a) : DSeparated (Edge G) (Finset.univ.filter (fun z => Edge G z b)) a b := by
  intro h
  obtain ⟨n, w, h0, hn, hw⟩ := DConnected.symm h
  have hn0 : n ≠ 0 := by
    rintro rfl
    exact hab (hn.symm.trans h0)
  have hn1 : n ≠ 1 := by
    rintro rfl
    have := hw.adj 0 (by omega)
    rw [h0, hn] at this
    exact hnadj this.symm
  rcases hw.adj 0 (by omega) with h1 | h1
  · rcases hw.walk.forward h1 n (by omega) le_rfl with ⟨z, hz, h2⟩ | ⟨h2, _⟩
    · rw [h0] at h2
      exact hac b (Relation.TransGen.tail' h2 (Finset.mem_filter.1 hz).2)
    · rw [h0, hn] at h2
      exact hnd h2
  · refine hw.other 0 (by omega) (fun h2 => acyclic_no_two hac h1 h2.1) ?_
    rw [Finset.mem_filter, ← h0]
    exact ⟨Finset.mem_univ _, h1⟩

/-- Two nodes that are not joined are d-separated by some set. -/
theorem exists_dseparated {G : Adj p} (hac : Acyclic G) {a b : Fin p} (hab : a ≠ b) (hnadj : ¬ Adjacent G a b) :
    ∃ Z : Finset (Fin p), a ∉ Z ∧ b ∉ Z ∧ DSeparated (Edge G) Z a b := by
  have loop : ∀ c, ¬ Edge G c c := fun c h => hac c (Relation.TransGen.single h)
  by_cases hnd : Relation.TransGen (Edge G) b a
  · have hnd' : ¬ Relation.TransGen (Edge G) a b := fun h => hac a (h.trans hnd)
    refine ⟨_, ?_, ?_, fun h => dseparated_parents hac hab.symm (fun h => hnadj h.symm) hnd' (DConnected.symm h)⟩
    · rw [Finset.mem_filter]
      exact fun h => loop a h.2
    · rw [Finset.mem_filter]
      exact fun h => hnadj (Or.inr h.2)
  · refine ⟨_, ?_, ?_, dseparated_parents hac hab hnadj hnd⟩
    · rw [Finset.mem_filter]
      exact fun h => hnadj (Or.inl h.2)
    · rw [Finset.mem_filter]
      exact fun h => loop b h.2

/-- In an unshielded triple `a, c, b` the middle is in no separating set if it is a collider, and in all of them otherwise. -/
theorem mem_separator_iff {G : Adj p} (hac : Acyclic G) {a b c : Fin p} {Z : Finset (Fin p)} (hab : a ≠ b) (hac' : Adjacent G a c)
    (hbc : Adjacent G b c) (hZ : DSeparated (Edge G) Z a b) : c ∉ Z ↔ Edge G a c ∧ Edge G b c := by
  have loop : ∀ c, ¬ Edge G c c := fun c h => hac c (Relation.TransGen.single h)
  have hca : c ≠ a := by
    rintro rfl
    rcases hac' with h | h <;> exact loop _ h
  have hcb : c ≠ b := by
    rintro rfl
    rcases hbc with h | h <;> exact loop _ h
  have hpath : ((Edge G a c ∧ Edge G b c) → c ∈ Z) → (¬ (Edge G a c ∧ Edge G b c) → c ∉ Z) → False := by
    intro h1 h2
    refine hZ ⟨2, fun i => if i = 0 then a else if i = 1 then c else b, rfl, rfl, ?_, ?_, ?_, ?_⟩
    · intro i hi j hj hij
      rw [Set.mem_Iic] at hi hj
      interval_cases i <;> interval_cases j <;> simp_all
    · intro i hi
      interval_cases i
      · exact hac'
      · exact hbc.symm
    · intro i hi h3 h4
      obtain rfl : i = 0 := by omega
      exact ⟨c, h1 ⟨h3, h4⟩, Relation.ReflTransGen.refl⟩
    · intro i hi h3
      obtain rfl : i = 0 := by omega
      exact h2 h3
  constructor
  · intro h
    by_contra hcon
    exact hpath (fun h1 => absurd h1 hcon) (fun _ => h)
  · intro h hcon
    exact hpath (fun _ => hcon) (fun h1 => absurd h h1)

/-- DAGs with the same d-separations are Markov equivalent. -/
theorem markovEquiv_of_sameDSep {G H : Adj p} (hG : Acyclic G) (hH : Acyclic H) (h : SameDSep G H) : MarkovEquiv G H := by
  have hskel1 : ∀ {G H : Adj p}, Acyclic G → Acyclic H → SameDSep G H → ∀ a b, Adjacent G a b → Adjacent H a b := by
    intro G H hG hH h a b hadj
    have hab : a ≠ b := by
      rintro rfl
      rcases hadj with h | h <;> exact hG a (Relation.TransGen.single h)
    by_contra hc
    obtain ⟨Z, h1, h2, h3⟩ := exists_dseparated hH hab hc
    exact (h a b Z hab h1 h2).2 h3 (dconnected_of_adjacent hab hadj)
  have hsymm : SameDSep H G := fun a b Z h1 h2 h3 => (h a b Z h1 h2 h3).symm
  have hskel : SameSkeleton G H := fun a b => ⟨hskel1 hG hH h a b, hskel1 hH hG hsymm a b⟩
  refine ⟨hskel, fun a c b => ?_⟩
  rw [vstructure_iff hG, vstructure_iff hH]
  have key : ∀ {G H : Adj p}, Acyclic G → Acyclic H → SameDSep G H → SameSkeleton G H →
      (Edge G a c ∧ Edge G b c ∧ a ≠ b ∧ ¬ Adjacent G a b) → (Edge H a c ∧ Edge H b c ∧ a ≠ b ∧ ¬ Adjacent H a b) := by
    rintro G H hG hH h hskel ⟨h1, h2, h3, h4⟩
    obtain ⟨Z, h5, h6, h7⟩ := exists_dseparated hG h3 h4
    have h8 := (mem_separator_iff hG h3 (Or.inl h1) (Or.inl h2) h7).2 ⟨h1, h2⟩
    have h9 := (mem_separator_iff hH h3 ((hskel a c).1 (Or.inl h1)) ((hskel b c).1 (Or.inl h2)) ((h a b Z h3 h5 h6).1 h7)).1 h8
    exact ⟨h9.1, h9.2, h3, fun hc => h4 ((hskel a b).2 hc)⟩
  exact ⟨key hG hH h hskel, key hH hG hsymm (fun a b => (hskel a b).symm)⟩

end Verif
