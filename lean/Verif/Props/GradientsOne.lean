import Verif.Props.Gradients

/-!
# One environment: the gradient of the variances is that of the loss
-/

namespace Verif

open Matrix Spec

variable {p l : Nat}

/-- C76: with one environment the gradient used for the noise variances, of targets and of the other variables, and for the latent variances, with
`psi_fixed` or without, consists of the partial derivatives of the loss that the descent compares. -/
theorem C76_rest_single_environment (it : SetIter p) (d : Data p 1) (I : Finset (Fin p)) (psiFixed : Bool) (m : LModel p l 1) (hA : Nonneg m.A)
    (hac : Acyclic m.A) (hB : Respects m.A m.B) (hn : d.total ≠ 0) (X : RestIx p l 1 → ℝ) (ho : ∀ k i, 0 < X (.inl (k, i)))
    (hp : ∀ k i, 0 < X (.inr (k, i))) :
    ∃ g, restGrad it d I psiFixed m X = .ok g ∧ ∀ q : RestIx p l 1, ∃ L : ℝ → ℝ,
      (∀ᶠ t in nhds 0, restLoss it d m (fun q' => X q' + if q' = q then t else 0) = .ok (some (L t))) ∧ HasDerivAt L (g q) 0 := by
  have hdet := det_one_sub_transpose hac hB
  obtain ⟨g, hg, h1, h2⟩ := C76_omegas it d I psiFixed m hA hac hB X ho (fun k i => (hp k i).le)
  obtain ⟨g', hg', h3, h4⟩ := C76_psis it d I psiFixed m hA hac hB X ho (fun k i => (hp k i).le)
  rw [hg] at hg'
  cases hg'
  refine ⟨g, hg, fun q => ?_⟩
  -- the covariances along the line
  choose C hC using fun (t : ℝ) (k : Fin 1) => entails_exists hdet (noiseCov m.gamma (fun i => X (.inr (k, i)) + if (Sum.inr (k, i) : RestIx p l 1) = q then t else 0)
    (fun i => X (.inl (k, i)) + if (Sum.inl (k, i) : RestIx p l 1) = q then t else 0))
  refine ⟨fun t => weightedNLL d.nObs (C t) d.covs, ?_, ?_⟩
  · have hX : ∀ᶠ t : ℝ in nhds 0, 0 < X q + t := eventually_pos (by rcases q with ⟨k, i⟩ | ⟨k, i⟩; exacts [ho k i, hp k i])
    filter_upwards [hX] with t ht
    rw [restLoss_eq it d m hA hac hB hn _ ?_ ?_ (C t) (fun k => entails_noise (hC t k) (fun _ _ => rfl) (fun b => by simp [toPsis])
      (fun i => by simp [toOmegas]))]
    · congr 2
      simp [weightedNLL]
    · intro k i
      by_cases hc : (Sum.inl (k, i) : RestIx p l 1) = q
      · rw [hc]
        simpa using ht
      · simpa [hc] using ho k i
    · intro k i
      by_cases hc : (Sum.inr (k, i) : RestIx p l 1) = q
      · rw [hc]
        simpa using ht.le
      · simpa [hc] using (hp k i).le
  · rcases q with ⟨k, i⟩ | ⟨k, i⟩
    · by_cases hi : i ∈ I
      · refine h1 k i hi C fun t k' => entails_noise (hC t k') (fun _ _ => rfl) (fun b => by simp) fun i' => by simp
      · have := h2 k i hi C fun t k' => entails_noise (hC t k') (fun _ _ => rfl) (fun b => by simp) fun i' => by simp [Subsingleton.elim k' k]
        simpa using this
    · cases psiFixed
      · refine h3 rfl k i C fun t k' => entails_noise (hC t k') (fun _ _ => rfl) (fun b => by simp) fun i' => by simp
      · have := h4 rfl k i C fun t k' => entails_noise (hC t k') (fun _ _ => rfl) (fun b => by simp [Subsingleton.elim k' k]) fun i' => by simp
        simpa using this

/-- A case: one variable with variance 1 and one latent with variance 1 and effect 1, sample variance 4; all derivatives are those of
`log (x + y) + 4 / (x + y)`. -/
example : ∃ g, restGrad (SetIter.incr 1) (⟨fun _ => !![4], fun _ => 3⟩ : Data 1 1) ∅ true
      (⟨fun _ _ => 0, 0, fun _ _ => 1, fun _ _ => 1, fun _ _ => 1, 1⟩ : LModel 1 1 1) (fun _ => 1) = .ok g ∧
    ∀ q : RestIx 1 1 1, ∃ L : ℝ → ℝ, (∀ᶠ t in nhds 0, restLoss (SetIter.incr 1) (⟨fun _ => !![4], fun _ => 3⟩ : Data 1 1)
      (⟨fun _ _ => 0, 0, fun _ _ => 1, fun _ _ => 1, fun _ _ => 1, 1⟩ : LModel 1 1 1) (fun q' => 1 + if q' = q then t else 0) = .ok (some (L t))) ∧
        HasDerivAt L (g q) 0 :=
  C76_rest_single_environment _ _ _ _ _ (fun _ _ => le_rfl) ((isDag_iff (SetIter.incr 1) (fun _ _ => le_rfl)).1 (by decide)) (fun _ _ _ => rfl) (by decide) _
    (fun _ _ => one_pos) (fun _ _ => one_pos)

end Verif
