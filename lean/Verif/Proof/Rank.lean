import Verif.Proof.GraphBasic
import Mathlib.Data.Fin.SuccPred
import Mathlib.Data.Fin.Tuple.Basic
import Mathlib.Data.Finset.Max

namespace Verif
open Spec
variable {p : Nat}

theorem Spec.acyclic_of_rank {A : Adj p} (f : Fin p → Nat) (h : ∀ i j, Edge A i j → f i < f j) : Acyclic A := by
  have key : ∀ a b, Relation.TransGen (Edge A) a b → f a < f b := by
    intro a b hab
    induction hab with
    | single h1 => exact h _ _ h1
    | tail _ h1 ih => exact lt_trans ih (h _ _ h1)
  exact fun i hi => lt_irrefl _ (key i i hi)

theorem Spec.Acyclic.exists_rank {A : Adj p} (h : Acyclic A) : ∃ f : Fin p → Nat, ∀ i j, Edge A i j → f i < f j := by
  classical
  refine ⟨fun a => (Finset.univ.filter (fun k => Relation.TransGen (Edge A) k a)).card, fun i j hij => ?_⟩
  apply Finset.card_lt_card
  rw [Finset.ssubset_iff_of_subset]
  · exact ⟨i, by simpa using Relation.TransGen.single hij, by simpa using h i⟩
  · intro k hk
    simp only [Finset.mem_filter, Finset.mem_univ, true_and] at hk ⊢
    exact hk.tail hij

theorem Spec.Acyclic.exists_inj_rank {A : Adj p} (h : Acyclic A) :
    ∃ f : Fin p → Nat, Function.Injective f ∧ ∀ i j, Edge A i j → f i < f j := by
  obtain ⟨f, hf⟩ := h.exists_rank
  refine ⟨fun i => f i * p + i, ?_, ?_⟩
  · intro i j hij
    have hi := i.isLt
    have hj := j.isLt
    have h1 : (f i * p + i) % p = (f j * p + j) % p := by simpa using congrArg (· % p) hij
    rw [Nat.mul_add_mod_self_right, Nat.mul_add_mod_self_right, Nat.mod_eq_of_lt hi, Nat.mod_eq_of_lt hj] at h1
    exact Fin.ext h1
  · intro i j hij
    have h1 := hf i j hij
    have hi := i.isLt
    have h2 : (f i + 1) * p ≤ f j * p := Nat.mul_le_mul_right p h1
    rw [Nat.add_mul] at h2
    dsimp only
    omega

theorem Spec.acyclic_iff_rank {A : Adj p} : Acyclic A ↔ ∃ f : Fin p → Nat, ∀ i j, Edge A i j → f i < f j :=
  ⟨fun h => h.exists_rank, fun ⟨f, h⟩ => acyclic_of_rank f h⟩

theorem Spec.Acyclic.noLoops {A : Adj p} (h : Acyclic A) : NoLoops A := by
  intro i
  by_contra hc
  exact h i (Relation.TransGen.single hc)

theorem Spec.Acyclic.exists_sink {n : Nat} {A : Adj (n + 1)} (h : Acyclic A) : ∃ i, ∀ j, A i j = 0 := by
  obtain ⟨f, hf⟩ := h.exists_rank
  obtain ⟨i, _, hi⟩ := Finset.exists_max_image (Finset.univ : Finset (Fin (n + 1))) f ⟨0, by simp⟩
  refine ⟨i, fun j => ?_⟩
  by_contra hc
  have := hf i j hc
  have := hi j (Finset.mem_univ _)
  omega

end Verif
