import Verif.Proof.MainFit

/-!
# C131: the order of the numbers of latents does not depend on the algorithm used by `sorted`
-/

namespace Verif

variable {β : Type}

/-- What a sorting algorithm promises: the elements of the list, none of them smaller than one before it. -/
structure Spec.SortedCopy (l r : List (Flt × Nat × β)) : Prop where
  perm : r.Perm l
  sorted : r.Pairwise fun a b => tupleLt b a = .ok false

open Spec

theorem lexLt_asymm {a b : Flt × Nat × β} (h : LexLt a b) (h' : LexLt b a) : False := by
  obtain ⟨x, y, h1, h2, h3⟩ := h
  obtain ⟨y', x', h4, h5, h6⟩ := h'
  rw [h2] at h4
  rw [h1] at h5
  cases h4
  cases h5
  rcases h3 with h3 | ⟨rfl, h3⟩ <;> rcases h6 with h6 | ⟨h7, h6⟩
  · exact lt_asymm h3 h6
  · exact h3.ne h7.symm
  · exact lt_irrefl _ h6
  · omega

theorem tupleLt_of_lexLt {a b : Flt × Nat × β} (h : LexLt a b) : tupleLt b a = .ok false := by
  obtain ⟨x, y, h1, h2, h3⟩ := h
  unfold tupleLt
  rw [h1, h2]
  rcases h3 with h3 | ⟨rfl, h3⟩
  · simp only []
    rw [if_pos h3.ne']
    simp [h3.le]
  · simp only [ne_eq, not_true_eq_false, if_false]
    rw [if_pos (by omega)]
    simp
    omega

/-- C131: if all test scores are numbers and the numbers of latents are different, all sorting algorithms return the same list, that of `sortedM`; its
first element has the smallest test score, and the smallest number of latents among those with this score. -/
theorem C131_any_sort (l : List (Flt × Nat × β)) (hl : (l.map (fun x => x.2.1)).Nodup) (hn : ∀ x ∈ l, x.1 ≠ none) : ∃ r, sortedM tupleLt l = .ok r ∧
    SortedCopy l r ∧ (∀ r', SortedCopy l r' → r' = r) ∧
    ∀ a rest, r = a :: rest → ∀ b ∈ l, ∃ x y, a.1 = some x ∧ b.1 = some y ∧ x ≤ y ∧ (x = y → a.2.1 ≤ b.2.1) := by
  obtain ⟨r, h1, h2, h3⟩ := sortedM_ok l hl
  refine ⟨r, h1, ⟨h2, (h3 hn).imp tupleLt_of_lexLt⟩, fun r' hr' => ?_, fun a rest hr b hb => ?_⟩
  · have hp : r'.Pairwise LexLt := by
      refine List.Pairwise.imp_of_mem (fun {a b} ha hb hab => ?_) hr'.sorted
      exact tupleLt_false (hn b (hr'.perm.mem_iff.1 hb)) (hn a (hr'.perm.mem_iff.1 ha)) hab
    exact (hr'.perm.trans h2.symm).eq_of_pairwise (fun a b _ _ h h' => (lexLt_asymm h h').elim) hp (h3 hn)
  · subst hr
    rcases List.mem_cons.1 (h2.mem_iff.2 hb) with rfl | hb'
    · obtain ⟨x, hx⟩ := Option.ne_none_iff_exists'.1 (hn b hb)
      exact ⟨x, x, hx, hx, le_refl _, fun _ => le_refl _⟩
    · obtain ⟨x, y, e1, e2, e3⟩ := (List.pairwise_cons.1 (h3 hn)).1 b hb'
      refine ⟨x, y, e1, e2, ?_, fun hxy => ?_⟩
      · rcases e3 with e3 | ⟨e3, -⟩
        · exact e3.le
        · exact e3.le
      · rcases e3 with e3 | ⟨-, e3⟩
        · exact absurd hxy e3.ne
        · exact e3.le

/-- Without the hypothesis on the scores algorithms differ: with `nan` in the middle the list is left as it is (`sortedM_run`), and another order is also free of
elements that are smaller than one before them. -/
theorem C131_nan_boundary : ∃ l : List (Flt × Nat × Unit), (l.map (fun x => x.2.1)).Nodup ∧ ∃ r r', SortedCopy l r ∧ SortedCopy l r' ∧ r ≠ r' :=
  ⟨[(none, 0, ()), (some 1, 1, ())], by simp, [(none, 0, ()), (some 1, 1, ())], [(some 1, 1, ()), (none, 0, ())],
    ⟨.refl _, by simp [tupleLt]⟩, ⟨.swap _ _ _, by simp [tupleLt]⟩, by simp⟩

/-- Three numbers of latents, two of them with the same score. -/
example : ∃ r, sortedM tupleLt [((some 2 : Flt), 3, ()), (some 1, 2, ()), (some 1, 0, ())] = .ok r ∧
    r = [(some 1, 0, ()), (some 1, 2, ()), (some 2, 3, ())] := by
  obtain ⟨r, h1, -, h3, -⟩ := C131_any_sort [((some 2 : Flt), 3, ()), (some 1, 2, ()), (some 1, 0, ())] (by simp) (by simp)
  refine ⟨r, h1, (h3 _ ⟨?_, ?_⟩).symm⟩
  · exact (List.reverse_perm [((some 2 : Flt), 3, ()), (some 1, 2, ()), (some 1, 0, ())])
  · simp [tupleLt]

end Verif
