import Verif.Model.GraphEdit
import Verif.Proof.Cpdag
import Mathlib.Tactic.Ring
import Mathlib.Algebra.BigOperators.Ring.Finset

namespace Verif
open Spec
variable {p : Nat}

theorem asBinary_ne {A : Adj p} {i j : Fin p} : asBinary A i j ≠ 0 ↔ A i j ≠ 0 := by
  unfold asBinary; split_ifs with h <;> simp [h]

theorem asBinary_zeroOne (A : Adj p) : ZeroOne (asBinary A) := by
  intro i j; unfold asBinary; split_ifs <;> simp

theorem sumAll_zeroOne {A : Adj p} (h : ZeroOne A) : sumAll A = (nnz A : Int) := by
  have h1 : (∑ i, ∑ j, A i j) = ∑ e : Fin p × Fin p, A e.1 e.2 := (Fintype.sum_prod_type' A).symm
  unfold sumAll nnz
  rw [h1, Finset.card_filter, Nat.cast_sum]
  refine Finset.sum_congr rfl (fun e _ => ?_)
  rcases h e.1 e.2 with h | h <;> simp [h]

theorem nnz_setEntry_one {A : Adj p} {i j : Fin p} (h : A i j = 0) : nnz (setEntry A i j 1) = nnz A + 1 := by
  have h1 : setEntry (setEntry A i j 1) i j 0 = A := by
    funext a b
    unfold setEntry
    split_ifs with h2
    · rw [h2.1, h2.2, h]
    · rfl
  have h2 := nnz_setEntry_zero (A := setEntry A i j 1) (i := i) (j := j) (by simp [setEntry])
  rw [h1] at h2
  exact h2.symm

/-! ### Adding one edge -/

theorem edge_setEntry_one {A : Adj p} {u v a b : Fin p} :
    Edge (setEntry A u v 1) a b ↔ Edge A a b ∨ (a = u ∧ b = v) := by
  unfold Edge setEntry
  split_ifs with h
  · simp [h]
  · simp [h]

theorem cycle_of_add {G : Adj p} (hG : Acyclic G) {u v : Fin p} (huv : u ≠ v)
    (hc : ¬ Acyclic (setEntry G u v 1)) : Relation.TransGen (Edge G) v u := by
  by_contra hno
  apply hc
  have key : ∀ a b, Relation.TransGen (Edge (setEntry G u v 1)) a b →
      Relation.TransGen (Edge G) a b ∨ (Relation.ReflTransGen (Edge G) a u ∧ Relation.ReflTransGen (Edge G) v b) := by
    intro a b h
    induction h with
    | single h =>
      rcases edge_setEntry_one.1 h with h | ⟨rfl, rfl⟩
      · exact Or.inl (Relation.TransGen.single h)
      · exact Or.inr ⟨Relation.ReflTransGen.refl, Relation.ReflTransGen.refl⟩
    | tail _ h ih =>
      rcases edge_setEntry_one.1 h with h | ⟨rfl, rfl⟩
      · rcases ih with ih | ih
        · exact Or.inl (ih.tail h)
        · exact Or.inr ⟨ih.1, ih.2.tail h⟩
      · rcases ih with ih | ih
        · exact Or.inr ⟨ih.to_reflTransGen, Relation.ReflTransGen.refl⟩
        · exact Or.inr ⟨ih.1, Relation.ReflTransGen.refl⟩
  intro a ha
  rcases key a a ha with h | h
  · exact hG a h
  · have h1 := h.2.trans h.1
    rcases Relation.reflTransGen_iff_eq_or_transGen.1 h1 with h2 | h2
    · exact huv h2
    · exact hno h2

/-- Invariant of the loop of `add_edges`: every pair is adjacent or can still be joined. -/
structure AddInv (A G : Adj p) (n : Int) (rest : List (Fin p × Fin p)) : Prop where
  zo : ZeroOne G
  ac : Acyclic G
  sub : ∀ i j, Edge A i j → Edge G i j
  bound : (nnz G : Int) ≤ nnz A + max n 0
  cand : ∀ e ∈ rest, e.1 ≠ e.2
  nd : rest.Nodup
  pairs : ∀ x y, x ≠ y → Adjacent G x y ∨ ((x, y) ∈ rest ∧ (y, x) ∈ rest) ∨
    ((x, y) ∈ rest ∧ Relation.TransGen (Edge G) x y) ∨ ((y, x) ∈ rest ∧ Relation.TransGen (Edge G) y x)

theorem transGen_mono {G H : Adj p} (h : ∀ i j, Edge G i j → Edge H i j) {a b : Fin p}
    (hab : Relation.TransGen (Edge G) a b) : Relation.TransGen (Edge H) a b := by
  induction hab with
  | single h1 => exact Relation.TransGen.single (h _ _ h1)
  | tail _ h1 ih => exact ih.tail (h _ _ h1)

theorem AddInv.accept {A G : Adj p} {n : Int} {e : Fin p × Fin p} {rest : List (Fin p × Fin p)}
    (h : AddInv A G n (e :: rest)) (hac : Acyclic (setEntry G e.1 e.2 1)) (hlt : (nnz G : Int) - nnz A < n) :
    AddInv A (setEntry G e.1 e.2 1) n rest := by
  have hmono : ∀ i j, Edge G i j → Edge (setEntry G e.1 e.2 1) i j := fun i j h => edge_setEntry_one.2 (Or.inl h)
  refine ⟨?_, hac, fun i j hij => hmono i j (h.sub i j hij), ?_, fun x hx => h.cand x (List.mem_cons_of_mem _ hx),
    (List.nodup_cons.1 h.nd).2, ?_⟩
  · intro i j
    unfold setEntry
    split_ifs
    · exact Or.inr rfl
    · exact h.zo i j
  · by_cases h0 : G e.1 e.2 = 0
    · rw [nnz_setEntry_one h0]
      push_cast
      omega
    · have : setEntry G e.1 e.2 1 = G := by
        funext a b
        unfold setEntry
        split_ifs with h2
        · rw [h2.1, h2.2]; exact ((h.zo e.1 e.2).resolve_left h0).symm
        · rfl
      rw [this]
      exact h.bound
  · intro x y hxy
    by_cases he : (x, y) = e
    · left; left
      exact edge_setEntry_one.2 (Or.inr ⟨by rw [← he], by rw [← he]⟩)
    by_cases he' : (y, x) = e
    · left; right
      exact edge_setEntry_one.2 (Or.inr ⟨by rw [← he'], by rw [← he']⟩)
    have hp := h.pairs x y hxy
    simp only [List.mem_cons, he, he', false_or] at hp
    rcases hp with hp | hp | hp | hp
    · left
      exact hp.imp (hmono x y) (hmono y x)
    · exact Or.inr (Or.inl hp)
    · exact Or.inr (Or.inr (Or.inl ⟨hp.1, transGen_mono hmono hp.2⟩))
    · exact Or.inr (Or.inr (Or.inr ⟨hp.1, transGen_mono hmono hp.2⟩))

theorem AddInv.reject {A G : Adj p} {n : Int} {e : Fin p × Fin p} {rest : List (Fin p × Fin p)}
    (h : AddInv A G n (e :: rest)) (hac : ¬ Acyclic (setEntry G e.1 e.2 1)) : AddInv A G n rest := by
  have hne := h.cand e (by simp)
  have hcyc := cycle_of_add h.ac hne hac
  refine ⟨h.zo, h.ac, h.sub, h.bound, fun x hx => h.cand x (List.mem_cons_of_mem _ hx), (List.nodup_cons.1 h.nd).2, ?_⟩
  intro x y hxy
  have hp := h.pairs x y hxy
  by_cases he : (x, y) = e
  · subst he
    have h1 : ¬ ((y, x) : Fin p × Fin p) = (x, y) := by
      intro h; exact hxy (Prod.ext_iff.1 h).1.symm
    simp only [List.mem_cons, h1, false_or, true_or, true_and] at hp
    rcases hp with hp | hp | hp | hp
    · exact Or.inl hp
    · exact Or.inr (Or.inr (Or.inr ⟨hp, hcyc⟩))
    · exact absurd (hp.trans hcyc) (h.ac x)
    · exact Or.inr (Or.inr (Or.inr hp))
  by_cases he' : (y, x) = e
  · subst he'
    simp only [List.mem_cons, he, false_or, true_or, and_true, true_and] at hp
    rcases hp with hp | hp | hp | hp
    · exact Or.inl hp
    · exact Or.inr (Or.inr (Or.inl ⟨hp, hcyc⟩))
    · exact Or.inr (Or.inr (Or.inl hp))
    · exact absurd (hp.trans hcyc) (h.ac y)
  simpa only [List.mem_cons, he, he', false_or] using hp

theorem addLoop_spec (it : SetIter p) {A : Adj p} (hA : ZeroOne A) (n : Int) (es : List (Fin p × Fin p)) :
    ∀ G, AddInv A G n es → ∃ rest, AddInv A (addLoop it A n es G) n rest ∧
      ((nnz (addLoop it A n es G) : Int) < nnz A + n → rest = []) := by
  induction es with
  | nil => intro G h; exact ⟨[], h, fun _ => rfl⟩
  | cons e es ih =>
    intro G h
    unfold addLoop
    rw [sumAll_zeroOne h.zo, sumAll_zeroOne hA]
    by_cases hlt : (nnz G : Int) - nnz A < n
    · rw [if_pos hlt]
      have hnn : Nonneg (setEntry G e.1 e.2 1) := by
        intro i j
        unfold setEntry
        split_ifs
        · exact Int.one_nonneg
        · exact h.zo.nonneg i j
      by_cases hd : isDag it (setEntry G e.1 e.2 1) = true
      · simp only [hd, if_true]
        exact ih _ (h.accept ((isDag_iff it hnn).1 hd) hlt)
      · simp only [hd, Bool.false_eq_true, if_false]
        exact ih _ (h.reject (fun hc => hd ((isDag_iff it hnn).2 hc)))
    · rw [if_neg hlt]
      exact ⟨e :: es, h, fun hc => by omega⟩

/-- A DAG has at most `p (p - 1) / 2` edges, with equality when every two nodes are adjacent. -/
theorem two_nnz_le {G : Adj p} (hac : Acyclic G) : (2 * nnz G : Int) ≤ p * (p - 1) ∧
    ((∀ x y, x ≠ y → Adjacent G x y) → (2 * nnz G : Int) = p * (p - 1)) := by
  classical
  have hswap : (Finset.univ.filter (fun e : Fin p × Fin p => G e.2 e.1 ≠ 0)).card = nnz G := by
    unfold nnz
    refine Finset.card_bij (fun e _ => (e.2, e.1)) ?_ ?_ ?_
    · rintro ⟨a, b⟩ h; simpa using h
    · rintro ⟨a, b⟩ _ ⟨c, d⟩ _ h
      simp only [Prod.mk.injEq] at h ⊢
      exact ⟨h.2, h.1⟩
    · rintro ⟨a, b⟩ h
      exact ⟨(b, a), by simpa using h, rfl⟩
  have hunion : (Finset.univ.filter (fun e : Fin p × Fin p => Adjacent G e.1 e.2)).card = 2 * nnz G := by
    have : (Finset.univ.filter (fun e : Fin p × Fin p => Adjacent G e.1 e.2)) =
        (Finset.univ.filter (fun e : Fin p × Fin p => G e.1 e.2 ≠ 0)) ∪
          (Finset.univ.filter (fun e : Fin p × Fin p => G e.2 e.1 ≠ 0)) := by
      ext e; simp only [Finset.mem_filter, Finset.mem_union, Finset.mem_univ, true_and]; rfl
    rw [this, Finset.card_union_of_disjoint, hswap]
    · unfold nnz; omega
    · rw [Finset.disjoint_filter]
      intro e _ h h'
      exact h' (hac.no_two h)
  have hoff : (Finset.univ.offDiag : Finset (Fin p × Fin p)).card = p * p - p := by
    rw [Finset.offDiag_card]; simp
  have hsub : (Finset.univ.filter (fun e : Fin p × Fin p => Adjacent G e.1 e.2)) ⊆ Finset.univ.offDiag := by
    intro e he
    simp only [Finset.mem_filter, Finset.mem_univ, true_and, Finset.mem_offDiag] at he ⊢
    intro heq
    rw [heq] at he
    rcases he with h | h <;> exact h (hac.no_two h)
  have hpp : ((p * p - p : Nat) : Int) = p * (p - 1) := by
    have : p ≤ p * p := Nat.le_mul_self p
    push_cast [this]
    ring
  constructor
  · have := Finset.card_le_card hsub
    rw [hunion, hoff] at this
    rw [← hpp]
    exact_mod_cast this
  · intro hall
    have : (Finset.univ.filter (fun e : Fin p × Fin p => Adjacent G e.1 e.2)) = Finset.univ.offDiag := by
      refine Finset.Subset.antisymm hsub ?_
      intro e he
      simp only [Finset.mem_filter, Finset.mem_univ, true_and, Finset.mem_offDiag] at he ⊢
      exact hall _ _ he
    rw [this, hoff] at hunion
    rw [← hpp, hunion]
    push_cast
    rfl

/-- Twice the number of edges of a DAG and the number of ordered pairs of distinct nodes that are not adjacent add up to the number of
ordered pairs of distinct nodes. -/
theorem nonadjacent_add {G : Adj p} (hac : Acyclic G) [DecidablePred (fun e : Fin p × Fin p => e.1 ≠ e.2 ∧ ¬ Adjacent G e.1 e.2)] :
    ((Finset.univ.filter (fun e : Fin p × Fin p => e.1 ≠ e.2 ∧ ¬ Adjacent G e.1 e.2)).card : Int) + 2 * nnz G = p * (p - 1) := by
  classical
  have hswap : (Finset.univ.filter (fun e : Fin p × Fin p => G e.2 e.1 ≠ 0)).card = nnz G := by
    unfold nnz
    refine Finset.card_bij (fun e _ => (e.2, e.1)) ?_ ?_ ?_
    · rintro ⟨a, b⟩ h; simpa using h
    · rintro ⟨a, b⟩ _ ⟨c, d⟩ _ h
      simp only [Prod.mk.injEq] at h ⊢
      exact ⟨h.2, h.1⟩
    · rintro ⟨a, b⟩ h
      exact ⟨(b, a), by simpa using h, rfl⟩
  have h1 : (Finset.univ.offDiag : Finset (Fin p × Fin p)) =
      (Finset.univ.filter (fun e : Fin p × Fin p => e.1 ≠ e.2 ∧ ¬ Adjacent G e.1 e.2)) ∪
        ((Finset.univ.filter (fun e : Fin p × Fin p => G e.1 e.2 ≠ 0)) ∪
          (Finset.univ.filter (fun e : Fin p × Fin p => G e.2 e.1 ≠ 0))) := by
    ext ⟨a, b⟩
    simp only [Finset.mem_filter, Finset.mem_union, Finset.mem_univ, true_and, Finset.mem_offDiag]
    constructor
    · intro hab
      by_cases h : Adjacent G a b
      · exact Or.inr h
      · exact Or.inl ⟨hab, h⟩
    · rintro (h | h | h)
      · exact h.1
      · rintro rfl; exact h (hac.no_two h)
      · rintro rfl; exact h (hac.no_two h)
  have hoff : (Finset.univ.offDiag : Finset (Fin p × Fin p)).card = p * p - p := by
    rw [Finset.offDiag_card]; simp
  rw [h1, Finset.card_union_of_disjoint, Finset.card_union_of_disjoint, hswap] at hoff
  · have hle : p ≤ p * p := Nat.le_mul_self p
    have hn : (Finset.univ.filter (fun e : Fin p × Fin p => G e.1 e.2 ≠ 0)).card = nnz G := rfl
    have hpp : ((p * p - p : Nat) : Int) = p * (p - 1) := by
      push_cast [hle]
      ring
    rw [← hpp, ← hoff, hn]
    push_cast
    ring
  · rw [Finset.disjoint_filter]
    intro e _ h h'
    exact h' (hac.no_two h)
  · rw [Finset.disjoint_left]
    intro e he he'
    simp only [Finset.mem_filter, Finset.mem_union, Finset.mem_univ, true_and] at he he'
    exact he.2 he'

theorem mul_pred_even (p : Nat) : ((p : Int) * (p - 1)) % 2 = 0 := by
  rcases Int.even_or_odd (p : Int) with ⟨k, hk⟩ | ⟨k, hk⟩
  · rw [hk, ← two_mul, mul_assoc]; exact Int.mul_emod_right _ _
  · rw [hk, show (2 * k + 1 - 1 : Int) = 2 * k by ring, mul_left_comm]; exact Int.mul_emod_right _ _

theorem addEdges_spec (it : SetIter p) (rng : Rng) {A : Adj p} (hac : Acyclic A) (n : Int) (hn : 0 ≤ n) :
    (n ≤ p * (p - 1) / 2 - nnz A →
      ∃ S, addEdges it rng A n = .ok S ∧ ZeroOne S ∧ Acyclic S ∧ (∀ i j, Edge A i j → Edge S i j) ∧
        (nnz S : Int) = nnz A + n) ∧
    (p * (p - 1) / 2 - nnz A < n → addEdges it rng A n = .error .valueError) := by
  have hedge : ∀ i j, Edge A i j ↔ Edge (asBinary A) i j := fun i j => asBinary_ne.symm
  have hbac : Acyclic (asBinary A) := acyclic_congr hedge hac
  have hb01 := asBinary_zeroOne A
  have hnnz : nnz (asBinary A) = nnz A := by
    unfold nnz
    congr 1
    ext e
    simp only [Finset.mem_filter, asBinary_ne]
  have hsum := sumAll_zeroOne hb01
  rw [hnnz] at hsum
  constructor
  · intro hle
    set es := rng.shuffle (wherePairs (fun i j : Fin p => decide (asBinary A i j + asBinary A j i +
      (if i = j then 1 else 0) = 0))) with hes
    have hperm := rng.shuffle_perm (wherePairs (fun i j : Fin p => decide (asBinary A i j + asBinary A j i +
      (if i = j then 1 else 0) = 0)))
    rw [← hes] at hperm
    have hmem : ∀ x y : Fin p, (x, y) ∈ es ↔ x ≠ y ∧ ¬ Adjacent (asBinary A) x y := by
      intro x y
      rw [hperm.mem_iff, mem_wherePairs, decide_eq_true_eq]
      dsimp only
      unfold Adjacent
      have h1 := hb01 x y
      have h2 := hb01 y x
      constructor
      · intro h
        split_ifs at h with hxy
        · exfalso; omega
        · exact ⟨hxy, by omega⟩
      · rintro ⟨h, h'⟩
        rw [if_neg h]
        omega
    have hinv : AddInv (asBinary A) (asBinary A) n es := by
      refine ⟨hb01, hbac, fun _ _ h => h, by omega, ?_, hperm.nodup_iff.2 nodup_wherePairs, ?_⟩
      · rintro ⟨x, y⟩ h
        exact ((hmem x y).1 h).1
      · intro x y hxy
        by_cases ha : Adjacent (asBinary A) x y
        · exact Or.inl ha
        · exact Or.inr (Or.inl ⟨(hmem x y).2 ⟨hxy, ha⟩, (hmem y x).2 ⟨hxy.symm, fun h => ha h.symm⟩⟩)
    obtain ⟨rest, h1, h2⟩ := addLoop_spec it hb01 n es _ hinv
    have hfin : (nnz (addLoop it (asBinary A) n es (asBinary A)) : Int) = nnz A + n := by
      have hb := h1.bound
      rw [hnnz] at hb h2
      by_contra hne
      have hlt : (nnz (addLoop it (asBinary A) n es (asBinary A)) : Int) < nnz A + n := by omega
      have hr := h2 hlt
      subst hr
      have hall := (two_nnz_le h1.ac).2 (fun x y hxy => by
        rcases h1.pairs x y hxy with h | h | h | h
        · exact h
        · simp at h
        · simp at h
        · simp at h)
      have := mul_pred_even p
      omega
    refine ⟨_, ?_, h1.zo, h1.ac, fun i j h => h1.sub i j ((hedge i j).1 h), hfin⟩
    unfold addEdges
    simp only []
    rw [if_neg (by rw [hsum]; omega), ← hes, if_pos]
    rw [sumAll_zeroOne h1.zo, hsum, hfin]
    omega
  · intro hlt
    unfold addEdges
    simp only []
    rw [if_pos (by rw [hsum]; omega)]

/-! ### Removing edges -/

theorem foldl_setEntry_zero (l : List (Fin p × Fin p)) (A : Adj p) (x y : Fin p) :
    l.foldl (fun P e => setEntry P e.1 e.2 0) A x y = if (x, y) ∈ l then 0 else A x y := by
  induction l generalizing A with
  | nil => simp
  | cons e l ih =>
    rw [List.foldl_cons, ih]
    by_cases h : (x, y) ∈ l
    · rw [if_pos h, if_pos (List.mem_cons_of_mem _ h)]
    · rw [if_neg h]
      unfold setEntry
      by_cases he : (x, y) = e
      · subst he
        simp
      · have : ¬ (x = e.1 ∧ y = e.2) := fun hc => he (Prod.ext hc.1 hc.2)
        rw [if_neg this, if_neg]
        rw [List.mem_cons]
        tauto

theorem nnz_foldl_remove (l : List (Fin p × Fin p)) (hnd : l.Nodup) (A : Adj p) (h : ∀ e ∈ l, A e.1 e.2 ≠ 0) :
    nnz (l.foldl (fun P e => setEntry P e.1 e.2 0) A) + l.length = nnz A := by
  induction l generalizing A with
  | nil => simp
  | cons e l ih =>
    rw [List.foldl_cons]
    have hn := List.nodup_cons.1 hnd
    have := ih hn.2 (setEntry A e.1 e.2 0) (fun x hx => by
      unfold setEntry
      rw [if_neg]
      · exact h x (List.mem_cons_of_mem _ hx)
      · rintro ⟨h1, h2⟩
        exact hn.1 (by rwa [show e = x from (Prod.ext h1 h2).symm]))
    have h2 := nnz_setEntry_zero (h e (by simp))
    rw [List.length_cons]
    omega

end Verif
