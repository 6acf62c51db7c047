import Verif.Proof.GradDescent

/-!
# C50, C51: gradient descent
-/

namespace Verif
open Spec

variable {ι : Type} {nArr : Nat} {blk : ι → Nat} {lossFun : (ι → ℝ) → Except Err Flt}
  {gradFun : (ι → ℝ) → Except Err (ι → ℝ)} {threshold learningRate : ℝ} {bounds : Option (List (EReal × EReal))}
  {kappaZero : ℝ}

/-- C50: whatever the loss and gradient functions are, the returned loss is the loss of the returned point, this point is
strictly inside its bounds, and either it is the initial point or its loss is strictly smaller than the initial loss (with a
`nan` initial loss the initial point is returned). -/
theorem C50_returns (Xinit X : ι → ℝ) (L : Flt)
    (h : gradientDescent nArr blk lossFun gradFun Xinit threshold learningRate bounds kappaZero = .ok (X, L)) :
    InBounds? nArr blk bounds X ∧ lossFun X = .ok L ∧ ∃ L0, lossFun Xinit = .ok L0 ∧
      ((X = Xinit ∧ L = L0) ∨ ∃ x y, L = some x ∧ L0 = some y ∧ x < y) := by
  unfold gradientDescent at h
  cases hb : checkBounds nArr blk Xinit bounds with
  | error err => rw [hb] at h; simp at h
  | ok b =>
    rw [hb] at h
    cases b with
    | false => simp at h
    | true =>
      simp only [] at h
      cases hl : lossFun Xinit with
      | error err => rw [hl] at h; simp at h
      | ok L0 =>
        rw [hl] at h
        simp only [] at h
        have := runLoop_ok (GDInv nArr blk lossFun bounds Xinit L0)
          (fun r => InBounds? nArr blk bounds r.1 ∧ lossFun r.1 = .ok r.2 ∧ ((r.1 = Xinit ∧ r.2 = L0) ∨ r.2.lt L0))
          (fun s s' hs hstep => hs.step hstep) (fun s r hs hstep => ?_)
          (⟨((checkBounds_true _ _ _ _).1 hb).2, hl, one_pos, Or.inl ⟨rfl, rfl⟩⟩) h
        · refine ⟨this.1, this.2.1, L0, rfl, ?_⟩
          rcases this.2.2 with h1 | h1
          · exact Or.inl h1
          · right
            simp only at h1
            cases L with
            | none => simp [Flt.lt] at h1
            | some x =>
              cases L0 with
              | none => simp [Flt.lt] at h1
              | some y => exact ⟨x, y, rfl, rfl, h1⟩
        · rcases gdStep_inr hstep with rfl | ⟨h1, h2, h3, -⟩
          · exact ⟨hs.inBounds, hs.loss, hs.better⟩
          · refine ⟨((checkBounds_true _ _ _ _).1 h1).2, h2, Or.inr ?_⟩
            rcases hs.better with ⟨-, h4⟩ | h4
            · rw [← h4]; exact h3
            · exact Flt.lt_trans h3 h4

/-- C50: the loss never gets worse. -/
theorem C50_not_worse (Xinit X : ι → ℝ) (x y : ℝ) (hy : lossFun Xinit = .ok (some y))
    (h : gradientDescent nArr blk lossFun gradFun Xinit threshold learningRate bounds kappaZero = .ok (X, some x)) : x ≤ y := by
  obtain ⟨-, -, L0, h0, h1⟩ := C50_returns Xinit X _ h
  rw [hy] at h0
  simp only [Except.ok.injEq] at h0
  subst h0
  rcases h1 with ⟨-, h1⟩ | ⟨x', y', h1, h2, h3⟩
  · exact le_of_eq (Option.some.inj h1)
  · rw [Option.some.inj h1, Option.some.inj h2]
    exact h3.le

/-- C50: if the loss and gradient functions do not fail, `ValueError` is raised exactly if the bounds are inverted or the
initial point is not strictly inside, and no other exception is possible. -/
theorem C50_raises_iff (Xinit : ι → ℝ) (hl : ∀ X, ∃ L, lossFun X = .ok L) (hg : ∀ X, ∃ g, gradFun X = .ok g) :
    (gradientDescent nArr blk lossFun gradFun Xinit threshold learningRate bounds kappaZero = .error .valueError ↔
      ¬ (BoundsOrdered? nArr bounds ∧ InBounds? nArr blk bounds Xinit)) ∧
    ∀ err, gradientDescent nArr blk lossFun gradFun Xinit threshold learningRate bounds kappaZero = .error err →
      err = .valueError ∨ err = .diverge := by
  have hloop : ∀ (hb : BoundsOrdered? nArr bounds) (s : GDState ι) err,
      runLoop (gdStep nArr blk lossFun gradFun threshold learningRate bounds kappaZero) s = .error err → err = .diverge := by
    intro hb s err h
    by_cases hst : Stops (gdStep nArr blk lossFun gradFun threshold learningRate bounds kappaZero) s
    · exfalso
      refine runLoop_error (fun _ => True) (fun _ => False) (fun _ _ _ _ => trivial) (fun s err _ hstep => ?_) trivial hst h
      rcases gdStep_error hstep with ⟨X, h1⟩ | ⟨X, h1⟩ | ⟨X, h1⟩
      · obtain ⟨g, h2⟩ := hg X
        rw [h2] at h1
        simp at h1
      · obtain ⟨g, h2⟩ := hl X
        rw [h2] at h1
        simp at h1
      · obtain ⟨g, h2⟩ := checkBounds_ordered nArr blk X bounds hb
        rw [h2] at h1
        simp at h1
    · rw [runLoop_of_not_stops hst] at h
      simpa using h.symm
  unfold gradientDescent
  obtain ⟨L, hL⟩ := hl Xinit
  constructor
  · constructor
    · intro h hc
      rw [(checkBounds_true _ _ _ _).2 hc, hL] at h
      have := hloop hc.1 _ _ h
      simp at this
    · intro hc
      cases hb : checkBounds nArr blk Xinit bounds with
      | error err => rw [checkBounds_error _ _ _ _ _ hb]
      | ok b =>
        cases b with
        | false => rfl
        | true => exact absurd ((checkBounds_true _ _ _ _).1 hb) hc
  · intro err h
    cases hb : checkBounds nArr blk Xinit bounds with
    | error err' =>
      rw [hb] at h
      simp only [Except.error.injEq] at h
      exact Or.inl (h ▸ checkBounds_error _ _ _ _ _ hb)
    | ok b =>
      rw [hb] at h
      cases b with
      | false => exact Or.inl (by simpa using h.symm)
      | true =>
        rw [hL] at h
        exact Or.inr (hloop ((checkBounds_true _ _ _ _).1 hb).1 _ _ h)

/-- C51: with a positive threshold, a positive `kappa_zero_point` and a loss that is bounded below inside the bounds, the
procedure stops: it does not run forever (unless the loss or the gradient function does). -/
theorem C51_terminates [Finite ι] (hthr : 0 < threshold) (hz : 0 < kappaZero) (lower : ℝ)
    (hlower : ∀ X v, InBounds? nArr blk bounds X → lossFun X = .ok (some v) → lower ≤ v)
    (hl : ∀ X, lossFun X ≠ .error .diverge) (hg : ∀ X, gradFun X ≠ .error .diverge) (Xinit : ι → ℝ) :
    gradientDescent nArr blk lossFun gradFun Xinit threshold learningRate bounds kappaZero ≠ .error .diverge := by
  intro h
  unfold gradientDescent at h
  cases hb : checkBounds nArr blk Xinit bounds with
  | error err =>
    rw [hb] at h
    simp only [Except.error.injEq] at h
    rw [checkBounds_error _ _ _ _ _ hb] at h
    simp at h
  | ok b =>
    rw [hb] at h
    cases b with
    | false => simp at h
    | true =>
      simp only [] at h
      obtain ⟨hord, hin⟩ := (checkBounds_true _ _ _ _).1 hb
      cases hL : lossFun Xinit with
      | error err =>
        rw [hL] at h
        simp only [Except.error.injEq] at h
        subst h
        exact hl _ hL
      | ok L0 =>
        rw [hL] at h
        simp only [] at h
        have hst := gd_stops (gradFun := gradFun) (learningRate := learningRate) hthr hz hord lower hlower Xinit L0 _
          { X := Xinit, loss := L0, kappa := 1, grad := none } ⟨hin, hL, one_pos, Or.inl ⟨rfl, rfl⟩⟩ rfl
        refine runLoop_error (fun _ => True) (fun err => err ≠ .diverge) (fun _ _ _ _ => trivial) (fun s err _ hstep => ?_)
          trivial hst h rfl
        rcases gdStep_error hstep with ⟨X, h1⟩ | ⟨X, h1⟩ | ⟨X, h1⟩
        · rintro rfl; exact hg X h1
        · rintro rfl; exact hl X h1
        · rw [checkBounds_error _ _ _ _ _ h1]; simp

/-- C50, C51: for total loss and gradient functions and an admissible initial point a result is returned. -/
theorem C51_returns [Finite ι] (hthr : 0 < threshold) (hz : 0 < kappaZero) (lower : ℝ)
    (hlower : ∀ X v, InBounds? nArr blk bounds X → lossFun X = .ok (some v) → lower ≤ v)
    (hl : ∀ X, ∃ L, lossFun X = .ok L) (hg : ∀ X, ∃ g, gradFun X = .ok g) (Xinit : ι → ℝ)
    (hord : BoundsOrdered? nArr bounds) (hin : InBounds? nArr blk bounds Xinit) :
    ∃ r, gradientDescent nArr blk lossFun gradFun Xinit threshold learningRate bounds kappaZero = .ok r := by
  cases h : gradientDescent nArr blk lossFun gradFun Xinit threshold learningRate bounds kappaZero with
  | ok r => exact ⟨r, rfl⟩
  | error err =>
    exfalso
    have h1 := C50_raises_iff (nArr := nArr) (blk := blk) (threshold := threshold) (learningRate := learningRate)
      (bounds := bounds) (kappaZero := kappaZero) Xinit hl hg
    rcases h1.2 err h with rfl | rfl
    · exact h1.1.1 h ⟨hord, hin⟩
    · refine C51_terminates hthr hz lower hlower (fun X hc => ?_) (fun X hc => ?_) Xinit h
      · obtain ⟨L, hL⟩ := hl X
        rw [hL] at hc
        simp at hc
      · obtain ⟨L, hL⟩ := hg X
        rw [hL] at hc
        simp at hc

/-- C51, the lower bound is needed: for the loss `x` with gradient `1` and no bounds the procedure runs forever. -/
theorem C51_unbounded_diverges :
    gradientDescent (ι := Unit) 1 (fun _ => 0) (fun X => .ok (some (X ()))) (fun _ => .ok (fun _ => 1)) (fun _ => 0)
      (1 / 2) 1 none (1 / 10 ^ 50) = .error .diverge := by
  unfold gradientDescent
  simp only [checkBounds]
  refine runLoop_diverges (fun s => s.grad = none ∧ s.kappa = 1 ∧ s.loss = some (s.X ())) ?_ ⟨rfl, rfl, rfl⟩
  rintro s ⟨h1, h2, h3⟩
  unfold gdStep
  simp only [GDState.gradients, checkBounds, h1, h2, h3, Flt.lt, Flt.absSubLt]
  rw [if_neg (by norm_num), if_pos (by norm_num)]
  exact ⟨_, rfl, rfl, rfl, rfl⟩

/-- C51, the positive threshold is needed: with threshold 0, the loss `x` on the bounds `(0, ∞)` runs forever. -/
theorem C51_zero_threshold_diverges :
    gradientDescent (ι := Unit) 1 (fun _ => 0) (fun X => .ok (some (X ()))) (fun _ => .ok (fun _ => 1)) (fun _ => 1)
      0 1 (some [(0, ⊤)]) (1 / 10 ^ 50) = .error .diverge := by
  have hb : ∀ X : Unit → ℝ, checkBounds 1 (fun _ => 0) X (some [((0 : EReal), (⊤ : EReal))]) =
      .ok (decide (0 < X ())) := by
    intro X
    simp only [checkBounds, isWithinBounds, List.range_one, List.zip_cons_cons, List.zip_nil_left, withinLoop]
    rw [if_neg (by simp)]
    by_cases h : 0 < X ()
    · rw [if_neg]
      · simp [h]
      · push Not
        exact ⟨fun i _ => by exact_mod_cast h, fun i _ => EReal.coe_lt_top _⟩
    · rw [if_pos]
      · simp [h]
      · exact Or.inl ⟨(), trivial, by exact_mod_cast not_lt.1 h⟩
  unfold gradientDescent
  rw [hb]
  simp only [zero_lt_one, decide_true]
  refine runLoop_diverges (fun s => s.gradients (fun _ => .ok (fun _ => 1)) = .ok (fun _ => 1) ∧ 0 < s.X () ∧
    (s.kappa = s.X () ∨ s.kappa = s.X () / 2) ∧ s.loss = some (s.X ())) ?_ ⟨rfl, one_pos, Or.inl rfl, rfl⟩
  rintro s ⟨h1, h2, h3, h4⟩
  unfold gdStep
  simp only [h1, hb, h4, Flt.lt, Flt.absSubLt]
  rcases h3 with h3 | h3
  · have hneg : ¬ 0 < s.X () - s.kappa * 1 * 1 := by rw [h3]; simp
    simp only [hneg, decide_false]
    exact ⟨_, rfl, rfl, h2, Or.inr (by simp [h3]), rfl⟩
  · have hpos : 0 < s.X () - s.kappa * 1 * 1 := by rw [h3]; linarith
    simp only [hpos, decide_true]
    rw [if_neg (by rintro ⟨-, hc⟩; exact absurd (abs_nonneg _) (not_le.2 hc)), if_pos (by rw [h3]; linarith)]
    refine ⟨_, rfl, ?_, hpos, Or.inl ?_, rfl⟩
    · simp [GDState.gradients]
    simp only [h3]
    ring

/-- Example meeting the hypotheses of C51: the loss `x²` on the bounds `(0, ∞)`. -/
example : ∃ r, gradientDescent (ι := Unit) 1 (fun _ => 0) (fun X => .ok (some (X () ^ 2))) (fun X => .ok (fun _ => 2 * X ()))
    (fun _ => 1) (1 / 100) 1 (some [(0, ⊤)]) (1 / 10 ^ 50) = .ok r := by
  refine C51_returns (by norm_num) (by norm_num) 0 ?_ (fun X => ⟨_, rfl⟩) (fun X => ⟨_, rfl⟩) _ ?_ ?_
  · intro X v _ h
    simp only [Except.ok.injEq, Option.some.injEq] at h
    rw [← h]
    positivity
  · intro b hb
    simp only [Option.some.injEq] at hb
    subst hb
    intro k lo hi hk hkb
    have : k = 0 := by omega
    subst this
    simp only [List.getElem?_cons_zero, Option.some.injEq, Prod.mk.injEq] at hkb
    rw [← hkb.1, ← hkb.2]
    simp
  · intro b hb
    simp only [Option.some.injEq] at hb
    subst hb
    intro k lo hi hk hkb i _
    have : k = 0 := by omega
    subst this
    simp only [List.getElem?_cons_zero, Option.some.injEq, Prod.mk.injEq] at hkb
    rw [← hkb.1, ← hkb.2]
    exact ⟨by exact_mod_cast one_pos, EReal.coe_lt_top _⟩

end Verif
