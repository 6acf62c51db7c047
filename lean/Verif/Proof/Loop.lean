import Verif.Model.Loop
import Mathlib.Order.Lattice
import Mathlib.Order.Nat

namespace Verif

variable {σ ρ : Type} {step : σ → Except Err (σ ⊕ ρ)}

theorem iterLoop_succ {n : Nat} : ∀ {s : σ} {r : Except Err ρ}, iterLoop step n s = some r → iterLoop step (n + 1) s = some r := by
  induction n with
  | zero => intro s r h; simp [iterLoop] at h
  | succ n ih =>
    intro s r h
    rw [iterLoop] at h ⊢
    cases hs : step s with
    | error err => rw [hs] at h; exact h
    | ok v =>
      cases v with
      | inr r' => rw [hs] at h; exact h
      | inl s' => rw [hs] at h; exact ih h

theorem iterLoop_mono {n m : Nat} (hnm : n ≤ m) {s : σ} {r : Except Err ρ} (h : iterLoop step n s = some r) :
    iterLoop step m s = some r := by
  induction hnm with
  | refl => exact h
  | step _ ih => exact iterLoop_succ ih

theorem iterLoop_unique {n m : Nat} {s : σ} {r r' : Except Err ρ} (h : iterLoop step n s = some r)
    (h' : iterLoop step m s = some r') : r = r' := by
  have h1 := iterLoop_mono (le_max_left n m) h
  have h2 := iterLoop_mono (le_max_right n m) h'
  rw [h1] at h2
  exact Option.some.inj h2

theorem runLoop_of_iter {n : Nat} {s : σ} {r : Except Err ρ} (h : iterLoop step n s = some r) : runLoop step s = r := by
  have hex : ∃ n r, iterLoop step n s = some r := ⟨n, r, h⟩
  unfold runLoop
  rw [dif_pos hex]
  exact iterLoop_unique hex.choose_spec.choose_spec h

/-- The loop stops (returns or raises). -/
def Stops (step : σ → Except Err (σ ⊕ ρ)) (s : σ) : Prop := ∃ n r, iterLoop step n s = some r

theorem runLoop_of_not_stops {s : σ} (h : ¬ Stops step s) : runLoop step s = .error .diverge := by
  unfold runLoop
  exact dif_neg h

theorem stops_iff {s : σ} : Stops step s ↔
    match step s with
    | .error _ => True
    | .ok (.inr _) => True
    | .ok (.inl s') => Stops step s' := by
  constructor
  · rintro ⟨n, r, h⟩
    cases n with
    | zero => simp [iterLoop] at h
    | succ n =>
      rw [iterLoop] at h
      cases hs : step s with
      | error err => trivial
      | ok v =>
        cases v with
        | inr r' => trivial
        | inl s' => rw [hs] at h; exact ⟨n, r, h⟩
  · intro h
    cases hs : step s with
    | error err => exact ⟨1, .error err, by simp [iterLoop, hs]⟩
    | ok v =>
      cases v with
      | inr r' => exact ⟨1, .ok r', by simp [iterLoop, hs]⟩
      | inl s' =>
        rw [hs] at h
        obtain ⟨n, r, h⟩ := h
        exact ⟨n + 1, r, by simpa [iterLoop, hs] using h⟩

theorem runLoop_unfold (s : σ) : runLoop step s =
    match step s with
    | .error err => .error err
    | .ok (.inr r) => .ok r
    | .ok (.inl s') => runLoop step s' := by
  by_cases h : Stops step s
  · obtain ⟨n, r, hn⟩ := h
    rw [runLoop_of_iter hn]
    cases n with
    | zero => simp [iterLoop] at hn
    | succ n =>
      rw [iterLoop] at hn
      cases hs : step s with
      | error err => rw [hs] at hn; exact (Option.some.inj hn).symm
      | ok v =>
        cases v with
        | inr r' => rw [hs] at hn; exact (Option.some.inj hn).symm
        | inl s' => rw [hs] at hn; exact (runLoop_of_iter hn).symm
  · rw [runLoop_of_not_stops h]
    rw [stops_iff] at h
    cases hs : step s with
    | error err => rw [hs] at h; exact absurd trivial h
    | ok v =>
      cases v with
      | inr r' => rw [hs] at h; exact absurd trivial h
      | inl s' => rw [hs] at h; exact (runLoop_of_not_stops h).symm

/-- Partial correctness: an invariant that holds initially, is preserved by continuing steps and implies the postcondition at
returning steps gives the postcondition for every returned result. -/
theorem runLoop_ok (P : σ → Prop) (Q : ρ → Prop) (hc : ∀ s s', P s → step s = .ok (.inl s') → P s')
    (hr : ∀ s r, P s → step s = .ok (.inr r) → Q r) {s : σ} (hs : P s) {r : ρ} (h : runLoop step s = .ok r) : Q r := by
  have hst : Stops step s := by
    by_contra hn
    rw [runLoop_of_not_stops hn] at h
    simp at h
  obtain ⟨n, r', hn⟩ := hst
  rw [runLoop_of_iter hn] at h
  subst h
  induction n generalizing s with
  | zero => simp [iterLoop] at hn
  | succ n ih =>
    rw [iterLoop] at hn
    cases hstep : step s with
    | error err => rw [hstep] at hn; simp at hn
    | ok v =>
      cases v with
      | inr r' =>
        rw [hstep] at hn
        simp only [Option.some.injEq, Except.ok.injEq] at hn
        exact hn ▸ hr s r' hs hstep
      | inl s' => rw [hstep] at hn; exact ih (hc s s' hs hstep) hn

/-- Which exceptions can come out. -/
theorem runLoop_error (P : σ → Prop) (Q : Err → Prop) (hc : ∀ s s', P s → step s = .ok (.inl s') → P s')
    (hr : ∀ s err, P s → step s = .error err → Q err) {s : σ} (hs : P s) (hst : Stops step s) {err : Err}
    (h : runLoop step s = .error err) : Q err := by
  obtain ⟨n, r', hn⟩ := hst
  rw [runLoop_of_iter hn] at h
  subst h
  induction n generalizing s with
  | zero => simp [iterLoop] at hn
  | succ n ih =>
    rw [iterLoop] at hn
    cases hstep : step s with
    | error err' =>
      rw [hstep] at hn
      simp only [Option.some.injEq, Except.error.injEq] at hn
      exact hn ▸ hr s err' hs hstep
    | ok v =>
      cases v with
      | inr r' => rw [hstep] at hn; simp at hn
      | inl s' => rw [hstep] at hn; exact ih (hc s s' hs hstep) hn

/-- Termination by a well-founded measure. -/
theorem stops_of_wf {α : Type} {rel : α → α → Prop} (hwf : WellFounded rel) (P : σ → Prop) (meas : σ → α)
    (hc : ∀ s s', P s → step s = .ok (.inl s') → P s' ∧ rel (meas s') (meas s)) {s : σ} (hs : P s) : Stops step s := by
  have key : ∀ a, ∀ s, meas s = a → P s → Stops step s := by
    intro a
    induction a using hwf.induction with
    | _ a ih =>
      rintro s rfl hs
      rw [stops_iff]
      cases hstep : step s with
      | error err => trivial
      | ok v =>
        cases v with
        | inr r => trivial
        | inl s' =>
          obtain ⟨h1, h2⟩ := hc s s' hs hstep
          exact ih _ h2 s' rfl h1
  exact key _ s rfl hs

/-- Divergence: a set of states closed under steps in which the loop always continues. -/
theorem runLoop_diverges (P : σ → Prop) (hc : ∀ s, P s → ∃ s', step s = .ok (.inl s') ∧ P s') {s : σ} (hs : P s) :
    runLoop step s = .error .diverge := by
  apply runLoop_of_not_stops
  rintro ⟨n, r, hn⟩
  induction n generalizing s with
  | zero => simp [iterLoop] at hn
  | succ n ih =>
    obtain ⟨s', h1, h2⟩ := hc s hs
    rw [iterLoop, h1] at hn
    exact ih h2 hn

end Verif
