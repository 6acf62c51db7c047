import Verif.Model.Graph
import Verif.Spec.Graph
import Mathlib.Data.Fintype.EquivFin
import Mathlib.Order.WellFounded
import Mathlib.Data.List.Perm.Basic
import Mathlib.Tactic.Linarith

namespace Verif
open Spec
variable {p : Nat}

@[simp] theorem mem_pa {i j : Fin p} {A : Adj p} : j ∈ pa i A ↔ A j i ≠ 0 ∧ A i j = 0 := by simp [pa]
@[simp] theorem mem_ch {i j : Fin p} {A : Adj p} : j ∈ ch i A ↔ A i j ≠ 0 ∧ A j i = 0 := by simp [ch]
@[simp] theorem mem_neighbors {i j : Fin p} {A : Adj p} : j ∈ neighbors i A ↔ A i j ≠ 0 ∧ A j i ≠ 0 := by
  simp [neighbors]
@[simp] theorem mem_adj {i j : Fin p} {A : Adj p} : j ∈ adj i A ↔ A i j ≠ 0 ∨ A j i ≠ 0 := by simp [adj]

@[simp] theorem mem_whereVec {c : Fin p → Bool} {i : Fin p} : i ∈ whereVec c ↔ c i = true := by
  simp [whereVec]

@[simp] theorem mem_allPairs (e : Fin p × Fin p) : e ∈ allPairs p := by
  rcases e with ⟨i, j⟩; simp [allPairs]

/-- used to evaluate concrete examples -/
def okEq (r : Except Err (Adj p)) (B : Adj p) : Bool :=
  match r with
  | .ok A => decide (∀ i j, A i j = B i j)
  | .error _ => false

theorem eq_of_okEq {r : Except Err (Adj p)} {B : Adj p} (h : okEq r B = true) : r = .ok B := by
  cases r with
  | error e => simp [okEq] at h
  | ok A =>
    simp only [okEq, decide_eq_true_eq] at h
    congr 1
    funext i j
    exact h i j

theorem pySorted_perm {α : Type} (le : α → α → Bool) (l : List α) : (pySorted le l).Perm l := List.perm_insertionSort _ _

theorem pySorted_pairwise {α : Type} {le : α → α → Bool} (htrans : ∀ a b c, le a b = true → le b c = true → le a c = true)
    (htotal : ∀ a b, (le a b || le b a) = true) (l : List α) : (pySorted le l).Pairwise (fun a b => le a b = true) := by
  have : Std.Total (fun a b : α => le a b = true) := ⟨fun a b => by simpa using htotal a b⟩
  have : IsTrans α (fun a b : α => le a b = true) := ⟨htrans⟩
  exact List.pairwise_insertionSort _ _

theorem nodup_allPairs : (allPairs p).Nodup := by
  unfold allPairs
  rw [List.nodup_flatMap]
  refine ⟨fun i _ => (List.nodup_finRange p).map (fun a b h => by simpa using h), ?_⟩
  refine (List.nodup_finRange p).imp ?_
  intro a b hab
  simp only [Function.onFun, List.Disjoint]
  intro x hx hy
  simp at hx hy
  obtain ⟨_, rfl⟩ := hx
  obtain ⟨_, h⟩ := hy
  exact hab (by simpa using (congrArg Prod.fst h).symm)

@[simp] theorem mem_wherePairs {c : Fin p → Fin p → Bool} {e : Fin p × Fin p} :
    e ∈ wherePairs c ↔ c e.1 e.2 = true := by
  simp [wherePairs]

theorem nodup_wherePairs {c : Fin p → Fin p → Bool} : (wherePairs c).Nodup := nodup_allPairs.filter _

theorem nodup_whereVec {c : Fin p → Bool} : (whereVec c).Nodup := (List.nodup_finRange p).filter _

theorem sumAll_pos_iff {A : Adj p} (h : Nonneg A) : sumAll A > 0 ↔ ∃ i j, A i j ≠ 0 := by
  unfold sumAll
  have h0 : 0 ≤ ∑ i, ∑ j, A i j := Finset.sum_nonneg fun i _ => Finset.sum_nonneg fun j _ => h i j
  constructor
  · intro hs
    by_contra hc
    push Not at hc
    have : ∑ i, ∑ j, A i j = 0 := Finset.sum_eq_zero fun i _ => Finset.sum_eq_zero fun j _ => hc i j
    omega
  · rintro ⟨i, j, hij⟩
    by_contra hc
    have hz : ∑ i, ∑ j, A i j = 0 := by omega
    rw [Finset.sum_eq_zero_iff_of_nonneg (fun i _ => Finset.sum_nonneg fun j _ => h i j)] at hz
    have h1 := hz i (Finset.mem_univ _)
    rw [Finset.sum_eq_zero_iff_of_nonneg (fun j _ => h i j)] at h1
    exact hij (h1 j (Finset.mem_univ _))

theorem colSum_eq_zero_iff {A : Adj p} (h : Nonneg A) (j : Fin p) : colSum A j = 0 ↔ ∀ i, A i j = 0 := by
  unfold colSum
  rw [Finset.sum_eq_zero_iff_of_nonneg (fun i _ => h i j)]
  simp

theorem onlyUndirected_nonneg {A : Adj p} (h : Nonneg A) : Nonneg (onlyUndirected A) := by
  intro i j; unfold onlyUndirected; split
  · exact h i j
  · exact le_refl _

theorem onlyUndirected_ne {A : Adj p} {i j : Fin p} : onlyUndirected A i j ≠ 0 ↔ A i j ≠ 0 ∧ A j i ≠ 0 := by
  unfold onlyUndirected; split <;> simp_all

theorem onlyDirected_ne {A : Adj p} {i j : Fin p} : onlyDirected A i j ≠ 0 ↔ A i j ≠ 0 ∧ A j i = 0 := by
  unfold onlyDirected; split
  · simp_all
  · rename_i h; simp only [ne_eq, not_true_eq_false, false_iff]; exact h

/-! ### Termination of Kahn's loop, for every matrix -/

theorem nnz_setEntry_zero {A : Adj p} {i j : Fin p} (h : A i j ≠ 0) : nnz (setEntry A i j 0) + 1 = nnz A := by
  unfold nnz
  have hmem : (i, j) ∈ Finset.univ.filter (fun e : Fin p × Fin p => A e.1 e.2 ≠ 0) := by simpa using h
  rw [← Finset.card_erase_add_one hmem]
  congr 2
  ext ⟨a, b⟩
  rw [Finset.mem_filter, Finset.mem_erase, Finset.mem_filter]
  simp only [setEntry, Finset.mem_univ, true_and, Prod.mk.injEq, ne_eq]
  by_cases hab : a = i ∧ b = j
  · simp [hab]
  · simp only [hab, if_false, not_false_eq_true, true_and]

theorem topoInner_measure (i : Fin p) (js : List (Fin p)) (A : Adj p) (sinks : List (Fin p))
    (hnd : js.Nodup) (hne : ∀ j ∈ js, A i j ≠ 0) :
    nnz (topoInner i js A sinks).1 + (topoInner i js A sinks).2.length ≤ nnz A + sinks.length := by
  induction js generalizing A sinks with
  | nil => simp [topoInner]
  | cons j js ih =>
    simp only [topoInner]
    rw [List.nodup_cons] at hnd
    have h1 := nnz_setEntry_zero (hne j (by simp))
    have h2 := ih (setEntry A i j 0) (if (pa j (setEntry A i j 0)).card = 0 then j :: sinks else sinks) hnd.2 (by
      intro k hk
      have : k ≠ j := fun h => hnd.1 (h ▸ hk)
      simp [setEntry, this, hne k (by simp [hk])])
    refine le_trans h2 ?_
    split <;> simp <;> omega

theorem topoLoop_terminates (it : SetIter p) (n : Nat) (A : Adj p) (sinks ord : List (Fin p))
    (h : nnz A + sinks.length ≤ n) : ∃ r, topoLoop it n A sinks ord = .ok r := by
  induction n generalizing A sinks ord with
  | zero =>
    cases sinks with
    | nil => exact ⟨_, by rw [topoLoop]⟩
    | cons i s => simp at h
  | succ n ih =>
    cases sinks with
    | nil => exact ⟨_, by rw [topoLoop]⟩
    | cons i s =>
      rw [topoLoop]
      apply ih
      have := topoInner_measure i (it.toList (ch i A)) A s (it.nodup _) (by
        intro j hj; rw [it.mem] at hj; simp at hj; exact hj.1)
      simp at h
      omega

theorem nnz_le (A : Adj p) : nnz A ≤ p * p := by
  unfold nnz
  refine le_trans (Finset.card_le_univ _) ?_
  simp

theorem topologicalOrdering_cases (it : SetIter p) (A : Adj p) :
    (∃ l, topologicalOrdering it A = .ok l) ∨ topologicalOrdering it A = .error .valueError := by
  unfold topologicalOrdering
  split
  · right; rfl
  · obtain ⟨r, hr⟩ := topoLoop_terminates it (p * p + p) A (whereVec (fun j => colSum A j = 0)).reverse [] (by
      have := nnz_le A
      have h2 : (whereVec (fun j => decide (colSum A j = 0))).reverse.length ≤ p := by
        rw [List.length_reverse]
        unfold whereVec
        refine le_trans (List.length_filter_le _ _) ?_
        simp
      omega)
    rw [hr]
    dsimp only
    split
    · right; rfl
    · left; exact ⟨_, rfl⟩

theorem topologicalOrdering_error (it : SetIter p) (A : Adj p) (e : Err)
    (h : topologicalOrdering it A = .error e) : e = .valueError := by
  rcases topologicalOrdering_cases it A with ⟨l, hl⟩ | hl
  · rw [hl] at h; cases h
  · rw [hl] at h; cases h; rfl

/-! ### Correctness for non-negative matrices -/

theorem topoInner_spec (i : Fin p) (js : List (Fin p)) (A : Adj p) (sinks : List (Fin p))
    (h2 : ∀ a b, A a b ≠ 0 → A b a = 0) (hnd : js.Nodup) :
    topoInner i js A sinks =
      ((fun a b => if a = i ∧ b ∈ js then 0 else A a b),
       (js.filter (fun j => decide (∀ k, k ≠ i → A k j = 0))).reverse ++ sinks) := by
  induction js generalizing A sinks with
  | nil => simp [topoInner]
  | cons j js ih =>
    simp only [topoInner]
    rw [List.nodup_cons] at hnd
    rw [ih _ _ _ hnd.2]
    · congr 1
      · funext a b
        simp only [setEntry, List.mem_cons]
        by_cases ha : a = i <;> by_cases hb : b ∈ js <;> by_cases hc : b = j <;> simp_all
      · have hfil : List.filter (fun j' => decide (∀ k, k ≠ i → setEntry A i j 0 k j' = 0)) js
            = List.filter (fun j' => decide (∀ k, k ≠ i → A k j' = 0)) js := by
          apply List.filter_congr
          intro x _
          simp only [setEntry]
          congr 1
          apply propext
          constructor
          · intro h k hk; have := h k hk; simpa [hk] using this
          · intro h k hk; simp [hk, h k hk]
        rw [hfil]
        have hpa : (pa j (setEntry A i j 0)).card = 0 ↔ ∀ k, k ≠ i → A k j = 0 := by
          rw [Finset.card_eq_zero, Finset.eq_empty_iff_forall_notMem]
          constructor
          · intro h k hk
            by_contra hne
            apply h k
            rw [mem_pa]
            simp only [setEntry]
            refine ⟨by simp [hk, hne], ?_⟩
            split
            · rfl
            · exact h2 _ _ hne
          · intro h k hk
            rw [mem_pa] at hk
            simp only [setEntry] at hk
            by_cases hki : k = i
            · simp [hki] at hk
            · simp [hki, h k hki] at hk
        by_cases hc : ∀ k, k ≠ i → A k j = 0
        · rw [if_pos (hpa.2 hc), List.filter_cons_of_pos (by simpa using hc)]
          simp
        · rw [if_neg (fun h => hc (hpa.1 h)), List.filter_cons_of_neg (by simpa using hc)]
    · intro a b
      simp only [setEntry]
      intro h
      split at h
      · exact absurd rfl h
      · split
        · rfl
        · exact h2 a b h

/-- loop invariant of Kahn's algorithm on a matrix `A0` without two-cycles -/
structure KahnInv (A0 A : Adj p) (sinks ord : List (Fin p)) : Prop where
  mat : ∀ i j, A i j = if i ∈ ord then 0 else A0 i j
  nodup : (sinks ++ ord).Nodup
  ready : ∀ j, (j ∈ sinks ∨ j ∈ ord) ↔ ∀ i, A0 i j ≠ 0 → i ∈ ord
  before : ∀ l1 j l2, ord = l1 ++ j :: l2 → ∀ i, A0 i j ≠ 0 → i ∈ l1

theorem KahnInv.step (it : SetIter p) {A0 A : Adj p} {i : Fin p} {sinks ord : List (Fin p)}
    (h2 : ∀ a b, A0 a b ≠ 0 → A0 b a = 0) (h : KahnInv A0 A (i :: sinks) ord) :
    KahnInv A0 (topoInner i (it.toList (ch i A)) A sinks).1 (topoInner i (it.toList (ch i A)) A sinks).2
      (ord ++ [i]) := by
  have hA2 : ∀ a b, A a b ≠ 0 → A b a = 0 := by
    intro a b hab
    rw [h.mat] at hab ⊢
    split at hab
    · exact absurd rfl hab
    · split
      · rfl
      · exact h2 _ _ hab
  have hnd := h.nodup
  have hio : i ∉ ord := by
    rw [List.cons_append, List.nodup_cons] at hnd
    intro hc; exact hnd.1 (by simp [hc])
  have his : i ∉ sinks := by
    rw [List.cons_append, List.nodup_cons] at hnd
    intro hc; exact hnd.1 (by simp [hc])
  have hpi : ∀ k, A0 k i ≠ 0 → k ∈ ord := (h.ready i).1 (by simp)
  have hch : ∀ j, j ∈ it.toList (ch i A) ↔ A0 i j ≠ 0 := by
    intro j
    rw [it.mem, mem_ch, h.mat i j, if_neg hio]
    constructor
    · exact fun h => h.1
    · intro hh
      refine ⟨hh, ?_⟩
      apply hA2
      rw [h.mat i j, if_neg hio]; exact hh
  rw [topoInner_spec i _ A sinks hA2 (it.nodup _)]
  have hcond : ∀ j, (∀ k, k ≠ i → A k j = 0) ↔ ∀ k, A0 k j ≠ 0 → k = i ∨ k ∈ ord := by
    intro j
    constructor
    · intro hh k hk
      by_cases hki : k = i
      · exact .inl hki
      · right
        have := hh k hki
        rw [h.mat] at this
        by_contra hko
        rw [if_neg hko] at this
        exact hk this
    · intro hh k hki
      rw [h.mat]
      split
      · rfl
      · rename_i hko
        by_contra hne
        rcases hh k hne with h1 | h1
        · exact hki h1
        · exact hko h1
  have hsi : ∀ j, j ∈ (List.filter (fun j => decide (∀ k, k ≠ i → A k j = 0)) (it.toList (ch i A))).reverse ++ sinks ↔
      (A0 i j ≠ 0 ∧ ∀ k, A0 k j ≠ 0 → k = i ∨ k ∈ ord) ∨ j ∈ sinks := by
    intro j
    rw [List.mem_append, List.mem_reverse, List.mem_filter, hch, decide_eq_true_iff, hcond]
  constructor
  · intro a b
    simp only [hch]
    by_cases ha : a = i
    · subst ha
      simp only [true_and, List.mem_append, List.mem_singleton, or_true, if_true]
      split
      · rfl
      · rename_i hz
        rw [h.mat, if_neg hio]
        exact not_not.1 hz
    · simp [ha, h.mat]
  · rw [List.append_assoc, List.nodup_append]
    rw [List.cons_append, List.nodup_cons] at hnd
    refine ⟨?_, ?_, ?_⟩
    · rw [List.nodup_reverse]; exact (it.nodup _).filter _
    · rw [← List.append_assoc, List.nodup_append]
      refine ⟨hnd.2, by simp, ?_⟩
      intro a ha b hb hab
      simp at hb; subst hb; subst hab
      exact hnd.1 ha
    · intro a ha b hb hab
      subst hab
      rw [List.mem_reverse, List.mem_filter, hch] at ha
      have hready := (h.ready a).1
      simp only [List.mem_append, List.mem_singleton] at hb
      rcases hb with hb | hb | hb
      · exact hio (hready (Or.inl (List.mem_cons_of_mem _ hb)) i ha.1)
      · exact hio (hready (Or.inr hb) i ha.1)
      · subst hb
        exact ha.1 (h2 _ _ ha.1)
  · intro j
    simp only
    rw [hsi]
    simp only [List.mem_append, List.mem_singleton]
    constructor
    · rintro ((⟨_, hk⟩ | hs) | (ho | rfl)) k hkj
      · exact (hk k hkj).symm
      · exact Or.inl ((h.ready j).1 (Or.inl (List.mem_cons_of_mem _ hs)) k hkj)
      · exact Or.inl ((h.ready j).1 (Or.inr ho) k hkj)
      · exact Or.inl (hpi k hkj)
    · intro hall
      by_cases hold : ∀ k, A0 k j ≠ 0 → k ∈ ord
      · rcases (h.ready j).2 hold with hs | ho
        · rw [List.mem_cons] at hs
          rcases hs with rfl | hs
          · exact Or.inr (Or.inr rfl)
          · exact Or.inl (Or.inr hs)
        · exact Or.inr (Or.inl ho)
      · left; left
        push Not at hold
        obtain ⟨k, hk, hko⟩ := hold
        rcases hall k hk with h1 | h1
        · exact absurd h1 hko
        · subst h1
          exact ⟨hk, fun m hm => (hall m hm).symm⟩
  · intro l1 j l2 heq k hk
    rcases List.eq_nil_or_concat l2 with rfl | ⟨l2', x, rfl⟩
    · have := List.append_inj' heq (by simp)
      obtain ⟨h1, h3⟩ := this
      subst h1
      simp at h3; subst h3
      exact hpi k hk
    · rw [List.concat_eq_append, ← List.cons_append, ← List.append_assoc] at heq
      have := List.append_inj' heq (by simp)
      exact h.before l1 j l2' this.1 k hk

theorem topoLoop_inv (it : SetIter p) {A0 : Adj p} (h2 : ∀ a b, A0 a b ≠ 0 → A0 b a = 0) (n : Nat) (A : Adj p)
    (sinks ord : List (Fin p)) (h : KahnInv A0 A sinks ord) (A' : Adj p) (ord' : List (Fin p))
    (hr : topoLoop it n A sinks ord = .ok (A', ord')) : KahnInv A0 A' [] ord' := by
  induction n generalizing A sinks ord with
  | zero =>
    cases sinks with
    | nil => rw [topoLoop] at hr; cases hr; exact h
    | cons i s => rw [topoLoop] at hr; cases hr
  | succ n ih =>
    cases sinks with
    | nil => rw [topoLoop] at hr; cases hr; exact h
    | cons i s =>
      rw [topoLoop] at hr
      exact ih _ _ _ (h.step it h2) hr

theorem Spec.IsTopoOrder.idx_lt {A : Adj p} {l : List (Fin p)} (h : IsTopoOrder A l) {i j : Fin p} (hij : Edge A i j) :
    l.idxOf i < l.idxOf j := by
  obtain ⟨l1, l2, l3, rfl⟩ := h.2.2 i j hij
  have hnd := h.1
  rw [List.append_assoc, List.nodup_append] at hnd
  obtain ⟨h1, h2, h3⟩ := hnd
  have hi1 : i ∉ l1 := fun hc => h3 i hc i (by simp) rfl
  have hj1 : j ∉ l1 := fun hc => h3 j hc j (by simp) rfl
  rw [List.cons_append, List.nodup_cons] at h2
  have hij' : i ≠ j := fun hc => h2.1 (by simp [hc])
  rw [List.append_assoc, List.idxOf_append_of_notMem hi1, List.idxOf_append_of_notMem hj1, List.cons_append,
    List.idxOf_cons_self, List.idxOf_cons_ne _ hij']
  omega

theorem Spec.IsTopoOrder.acyclic {A : Adj p} {l : List (Fin p)} (h : IsTopoOrder A l) : Acyclic A := by
  intro i hi
  have key : ∀ a b, Relation.TransGen (Edge A) a b → l.idxOf a < l.idxOf b := by
    intro a b hab
    induction hab with
    | single h1 => exact h.idx_lt h1
    | tail _ h1 ih => exact lt_trans ih (h.idx_lt h1)
  exact lt_irrefl _ (key i i hi)

theorem acyclic_wf {A : Adj p} (h : Acyclic A) : WellFounded (Relation.TransGen (Edge A)) := by
  have : Std.Irrefl (Relation.TransGen (Edge A)) := ⟨h⟩
  exact Finite.wellFounded_of_trans_of_irrefl _

theorem Spec.Acyclic.no_two {A : Adj p} (h : Acyclic A) {i j : Fin p} (hij : A i j ≠ 0) : A j i = 0 := by
  by_contra hc
  exact h i (Relation.TransGen.tail (Relation.TransGen.single hij) hc)

theorem topologicalOrdering_spec (it : SetIter p) (A : Adj p) (hA : Nonneg A) :
    (∀ l, topologicalOrdering it A = .ok l → IsTopoOrder A l) ∧
    (topologicalOrdering it A = .error .valueError → ¬ Acyclic A) := by
  unfold topologicalOrdering
  by_cases hund : sumAll (onlyUndirected A) > 0
  · rw [if_pos hund]
    refine ⟨fun l h => (nomatch h), fun _ hac => ?_⟩
    rw [sumAll_pos_iff (onlyUndirected_nonneg hA)] at hund
    obtain ⟨i, j, hij⟩ := hund
    rw [onlyUndirected_ne] at hij
    exact hij.2 (hac.no_two hij.1)
  · rw [if_neg hund]
    rw [sumAll_pos_iff (onlyUndirected_nonneg hA)] at hund
    have h2 : ∀ a b, A a b ≠ 0 → A b a = 0 := by
      intro a b hab
      by_contra hc
      exact hund ⟨a, b, onlyUndirected_ne.2 ⟨hab, hc⟩⟩
    obtain ⟨⟨A', ord⟩, hr⟩ := topoLoop_terminates it (p * p + p) A (whereVec (fun j => colSum A j = 0)).reverse [] (by
      have := nnz_le A
      have h2 : (whereVec (fun j => decide (colSum A j = 0))).reverse.length ≤ p := by
        rw [List.length_reverse]
        unfold whereVec
        refine le_trans (List.length_filter_le _ _) ?_
        simp
      omega)
    have hinv : KahnInv A A' [] ord := by
      refine topoLoop_inv it h2 _ _ _ _ ?_ _ _ hr
      constructor
      · intro i j; simp
      · simp [nodup_whereVec]
      · intro j
        simp only [List.mem_reverse, mem_whereVec, decide_eq_true_eq, List.not_mem_nil, or_false]
        rw [colSum_eq_zero_iff hA]
        constructor
        · intro h i hi; exact hi (h i)
        · intro h i; by_contra hc; exact h i hc
      · intro l1 j l2 h; simp at h
    have hA' : Nonneg A' := by
      intro i j; rw [hinv.mat]; split
      · exact le_refl _
      · exact hA i j
    rw [hr]
    dsimp only
    have hready : ∀ j, j ∈ ord ↔ ∀ i, A i j ≠ 0 → i ∈ ord := by
      intro j
      simpa using hinv.ready j
    constructor
    · intro l hl
      split at hl
      · cases hl
      · rename_i hs
        cases hl
        rw [sumAll_pos_iff hA'] at hs
        have hall : ∀ j, j ∈ ord := by
          intro j
          rw [hready]
          intro i hi
          by_contra hio
          exact hs ⟨i, j, by rw [hinv.mat, if_neg hio]; exact hi⟩
        refine ⟨by simpa using hinv.nodup, hall, ?_⟩
        intro i j hij
        obtain ⟨l1, l2, hl⟩ := List.append_of_mem (hall j)
        obtain ⟨l3, l4, hl'⟩ := List.append_of_mem (hinv.before l1 j l2 hl i hij)
        exact ⟨l3, l4, l2, by rw [hl, hl']⟩
    · intro h hac
      split at h
      · rename_i hs
        rw [sumAll_pos_iff hA'] at hs
        obtain ⟨i, j, hij⟩ := hs
        rw [hinv.mat] at hij
        split at hij
        · exact hij rfl
        · rename_i hio
          obtain ⟨m, hm, hmin⟩ := (acyclic_wf hac).has_min {i | i ∉ ord} ⟨i, hio⟩
          apply hm
          rw [hready]
          intro k hk
          by_contra hko
          exact hmin k hko (Relation.TransGen.single hk)
      · cases h

/-- `is_dag` decides acyclicity of every non-negative matrix -/
theorem isDag_iff (it : SetIter p) {A : Adj p} (hA : Nonneg A) : isDag it A = true ↔ Acyclic A := by
  have hs := topologicalOrdering_spec it A hA
  unfold isDag
  rcases topologicalOrdering_cases it A with ⟨l, hl⟩ | hl
  · rw [hl]; simp only [true_iff]
    exact (hs.1 l hl).acyclic
  · rw [hl]; simp only [Bool.false_eq_true, false_iff]
    exact hs.2 hl

theorem topologicalOrdering_ok_iff (it : SetIter p) {A : Adj p} (hA : Nonneg A) :
    (∃ l, topologicalOrdering it A = .ok l) ↔ Acyclic A := by
  rw [← isDag_iff it hA]
  unfold isDag
  rcases topologicalOrdering_cases it A with ⟨l, hl⟩ | hl <;> simp [hl]

end Verif
