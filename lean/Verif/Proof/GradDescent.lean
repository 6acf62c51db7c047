import Verif.Model.GradDescent
import Verif.Proof.Loop
import Mathlib.Topology.Instances.EReal.Lemmas
import Mathlib.Algebra.Order.Floor.Defs
import Mathlib.Algebra.Order.Archimedean.Basic
import Mathlib.Data.Finite.Defs
import Mathlib.Data.Fintype.Order
import Mathlib.Order.Filter.Finite

namespace Verif

variable {ι : Type}

/-- Every entry of every array is strictly inside the bounds of its array. -/
def Spec.InBounds (nArr : Nat) (blk : ι → Nat) (bounds : List (EReal × EReal)) (X : ι → ℝ) : Prop :=
  ∀ k lo hi, k < nArr → bounds[k]? = some (lo, hi) → ∀ i, blk i = k → lo < (X i : EReal) ∧ (X i : EReal) < hi

/-- No pair of bounds is inverted. -/
def Spec.BoundsOrdered (nArr : Nat) (bounds : List (EReal × EReal)) : Prop :=
  ∀ (k : Nat) lo hi, k < nArr → bounds[k]? = some (lo, hi) → lo ≤ hi

/-- `InBounds` for optional bounds. -/
def Spec.InBounds? (nArr : Nat) (blk : ι → Nat) (bounds : Option (List (EReal × EReal))) (X : ι → ℝ) : Prop :=
  ∀ b, bounds = some b → InBounds nArr blk b X

def Spec.BoundsOrdered? (nArr : Nat) (bounds : Option (List (EReal × EReal))) : Prop :=
  ∀ b, bounds = some b → BoundsOrdered nArr b

open Spec

theorem withinLoop_true (blk : ι → Nat) (X : ι → ℝ) (L : List (Nat × EReal × EReal)) :
    withinLoop blk X L = .ok true ↔
      ∀ k lo hi, (k, lo, hi) ∈ L → lo ≤ hi ∧ ∀ i, blk i = k → lo < (X i : EReal) ∧ (X i : EReal) < hi := by
  induction L with
  | nil => simp [withinLoop]
  | cons b L ih =>
    obtain ⟨k, lo, hi⟩ := b
    rw [withinLoop]
    by_cases h1 : hi < lo
    · rw [if_pos h1]
      constructor
      · intro h; simp at h
      · intro h
        exact absurd (h k lo hi (by simp)).1 (not_le.2 h1)
    · rw [if_neg h1]
      by_cases h2 : (∃ i, blk i = k ∧ (X i : EReal) ≤ lo) ∨ (∃ i, blk i = k ∧ hi ≤ (X i : EReal))
      · rw [if_pos h2]
        constructor
        · intro h; simp at h
        · intro h
          have h3 := (h k lo hi (by simp)).2
          rcases h2 with ⟨i, hi1, hi2⟩ | ⟨i, hi1, hi2⟩
          · exact absurd (h3 i hi1).1 (not_lt.2 hi2)
          · exact absurd (h3 i hi1).2 (not_lt.2 hi2)
      · rw [if_neg h2, ih]
        push Not at h2
        constructor
        · intro h k' lo' hi' hm
          rcases List.mem_cons.1 hm with heq | hm
          · simp only [Prod.mk.injEq] at heq
            obtain ⟨rfl, rfl, rfl⟩ := heq
            exact ⟨not_lt.1 h1, fun i hi => ⟨h2.1 i hi, h2.2 i hi⟩⟩
          · exact h k' lo' hi' hm
        · intro h k' lo' hi' hm
          exact h k' lo' hi' (List.mem_cons_of_mem _ hm)

theorem withinLoop_ordered (blk : ι → Nat) (X : ι → ℝ) (L : List (Nat × EReal × EReal))
    (h : ∀ k lo hi, (k, lo, hi) ∈ L → lo ≤ hi) : ∃ b, withinLoop blk X L = .ok b := by
  induction L with
  | nil => exact ⟨true, rfl⟩
  | cons b L ih =>
    obtain ⟨k, lo, hi⟩ := b
    rw [withinLoop, if_neg (not_lt.2 (h k lo hi (by simp)))]
    split_ifs
    · exact ⟨_, rfl⟩
    · exact ih (fun k lo hi hm => h k lo hi (List.mem_cons_of_mem _ hm))

theorem withinLoop_error (blk : ι → Nat) (X : ι → ℝ) (L : List (Nat × EReal × EReal)) (err : Err)
    (h : withinLoop blk X L = .error err) : err = .valueError := by
  induction L with
  | nil => simp [withinLoop] at h
  | cons b L ih =>
    obtain ⟨k, lo, hi⟩ := b
    rw [withinLoop] at h
    split_ifs at h
    · simpa using h.symm
    · exact ih h

theorem mem_zip_range {α : Type} (n : Nat) (l : List α) (k : Nat) (b : α) :
    (k, b) ∈ (List.range n).zip l ↔ k < n ∧ l[k]? = some b := by
  rw [List.mem_iff_getElem?]
  constructor
  · rintro ⟨j, hj⟩
    rw [List.getElem?_zip_eq_some] at hj
    obtain ⟨h1, h2⟩ := hj
    have hj : j < n := by
      by_contra hc
      rw [List.getElem?_eq_none (by simpa using hc)] at h1
      simp at h1
    rw [List.getElem?_eq_getElem (by simpa using hj)] at h1
    simp only [List.getElem_range, Option.some.injEq] at h1
    subst h1
    exact ⟨hj, h2⟩
  · rintro ⟨h1, h2⟩
    refine ⟨k, ?_⟩
    rw [List.getElem?_zip_eq_some]
    exact ⟨by simp [h1], h2⟩

theorem isWithinBounds_true (nArr : Nat) (blk : ι → Nat) (X : ι → ℝ) (bounds : List (EReal × EReal)) :
    isWithinBounds nArr blk X bounds = .ok true ↔ BoundsOrdered nArr bounds ∧ InBounds nArr blk bounds X := by
  unfold isWithinBounds BoundsOrdered InBounds
  rw [withinLoop_true]
  simp only [mem_zip_range]
  constructor
  · intro h
    exact ⟨fun k lo hi h1 h2 => (h k lo hi ⟨h1, h2⟩).1, fun k lo hi h1 h2 => (h k lo hi ⟨h1, h2⟩).2⟩
  · rintro ⟨h1, h2⟩ k lo hi ⟨h3, h4⟩
    exact ⟨h1 k lo hi h3 h4, h2 k lo hi h3 h4⟩

theorem isWithinBounds_ordered (nArr : Nat) (blk : ι → Nat) (X : ι → ℝ) (bounds : List (EReal × EReal))
    (h : BoundsOrdered nArr bounds) : ∃ b, isWithinBounds nArr blk X bounds = .ok b := by
  unfold isWithinBounds
  apply withinLoop_ordered
  intro k lo hi hm
  rw [mem_zip_range] at hm
  exact h k lo hi hm.1 hm.2

theorem checkBounds_true (nArr : Nat) (blk : ι → Nat) (X : ι → ℝ) (bounds : Option (List (EReal × EReal))) :
    checkBounds nArr blk X bounds = .ok true ↔ BoundsOrdered? nArr bounds ∧ InBounds? nArr blk bounds X := by
  cases bounds with
  | none => simp [checkBounds, BoundsOrdered?, InBounds?]
  | some b => simp [checkBounds, BoundsOrdered?, InBounds?, isWithinBounds_true]

theorem checkBounds_ordered (nArr : Nat) (blk : ι → Nat) (X : ι → ℝ) (bounds : Option (List (EReal × EReal)))
    (h : BoundsOrdered? nArr bounds) : ∃ b, checkBounds nArr blk X bounds = .ok b := by
  cases bounds with
  | none => exact ⟨true, rfl⟩
  | some b => exact isWithinBounds_ordered nArr blk X b (h b rfl)

theorem checkBounds_error (nArr : Nat) (blk : ι → Nat) (X : ι → ℝ) (bounds : Option (List (EReal × EReal))) (err : Err)
    (h : checkBounds nArr blk X bounds = .error err) : err = .valueError := by
  cases bounds with
  | none => simp [checkBounds] at h
  | some b => exact withinLoop_error _ _ _ _ h

variable {nArr : Nat} {blk : ι → Nat} {lossFun : (ι → ℝ) → Except Err Flt} {gradFun : (ι → ℝ) → Except Err (ι → ℝ)}
  {threshold learningRate : ℝ} {bounds : Option (List (EReal × EReal))} {kappaZero : ℝ}

/-- The possible continuing steps. -/
theorem gdStep_inl {s s' : GDState ι}
    (h : gdStep nArr blk lossFun gradFun threshold learningRate bounds kappaZero s = .ok (.inl s')) :
    ∃ g, s.gradients gradFun = .ok g ∧
      ((s' = { s with kappa := s.kappa / 2, grad := some g } ∧
        (checkBounds nArr blk (fun i => s.X i - s.kappa * learningRate * g i) bounds = .ok false ∨
          kappaZero < s.kappa * learningRate)) ∨
      ∃ newLoss, checkBounds nArr blk (fun i => s.X i - s.kappa * learningRate * g i) bounds = .ok true ∧
        lossFun (fun i => s.X i - s.kappa * learningRate * g i) = .ok newLoss ∧ newLoss.lt s.loss ∧
        ¬ newLoss.absSubLt s.loss threshold ∧
        s' = { s with X := fun i => s.X i - s.kappa * learningRate * g i, loss := newLoss, grad := none }) := by
  unfold gdStep at h
  cases hg : s.gradients gradFun with
  | error err => rw [hg] at h; simp at h
  | ok g =>
    rw [hg] at h
    simp only [] at h
    refine ⟨g, rfl, ?_⟩
    cases hb : checkBounds nArr blk (fun i => s.X i - s.kappa * learningRate * g i) bounds with
    | error err => rw [hb] at h; simp at h
    | ok b =>
      rw [hb] at h
      cases b with
      | false =>
        simp only [Except.ok.injEq, Sum.inl.injEq] at h
        exact Or.inl ⟨h.symm, Or.inl rfl⟩
      | true =>
        simp only [] at h
        cases hl : lossFun (fun i => s.X i - s.kappa * learningRate * g i) with
        | error err => rw [hl] at h; simp at h
        | ok newLoss =>
          rw [hl] at h
          simp only [] at h
          split_ifs at h with h1 h2 h3
          · simp at h
          · simp only [Except.ok.injEq, Sum.inl.injEq] at h
            exact Or.inr ⟨newLoss, rfl, rfl, h2, fun hc => h1 ⟨h2, hc⟩, h.symm⟩
          · simp at h
          · simp only [Except.ok.injEq, Sum.inl.injEq] at h
            exact Or.inl ⟨h.symm, Or.inr (not_le.1 h3)⟩

/-- The possible returning steps. -/
theorem gdStep_inr {s : GDState ι} {r : (ι → ℝ) × Flt}
    (h : gdStep nArr blk lossFun gradFun threshold learningRate bounds kappaZero s = .ok (.inr r)) :
    r = (s.X, s.loss) ∨
      (checkBounds nArr blk r.1 bounds = .ok true ∧ lossFun r.1 = .ok r.2 ∧ r.2.lt s.loss ∧ r.2.absSubLt s.loss threshold) := by
  unfold gdStep at h
  cases hg : s.gradients gradFun with
  | error err => rw [hg] at h; simp at h
  | ok g =>
    rw [hg] at h
    simp only [] at h
    cases hb : checkBounds nArr blk (fun i => s.X i - s.kappa * learningRate * g i) bounds with
    | error err => rw [hb] at h; simp at h
    | ok b =>
      rw [hb] at h
      cases b with
      | false => simp at h
      | true =>
        simp only [] at h
        cases hl : lossFun (fun i => s.X i - s.kappa * learningRate * g i) with
        | error err => rw [hl] at h; simp at h
        | ok newLoss =>
          rw [hl] at h
          simp only [] at h
          split_ifs at h with h1 h2 h3
          · simp only [Except.ok.injEq, Sum.inr.injEq] at h
            subst h
            exact Or.inr ⟨hb, hl, h1⟩
          · simp at h
          · simp only [Except.ok.injEq, Sum.inr.injEq] at h
            exact Or.inl h.symm
          · simp at h

theorem gdStep_error {s : GDState ι} {err : Err}
    (h : gdStep nArr blk lossFun gradFun threshold learningRate bounds kappaZero s = .error err) :
    (∃ X, gradFun X = .error err) ∨ (∃ X, lossFun X = .error err) ∨ ∃ X, checkBounds nArr blk X bounds = .error err := by
  unfold gdStep at h
  cases hg : s.gradients gradFun with
  | error err' =>
    rw [hg] at h
    simp only [Except.error.injEq] at h
    subst h
    left
    unfold GDState.gradients at hg
    cases hs : s.grad with
    | none => rw [hs] at hg; exact ⟨_, hg⟩
    | some g => rw [hs] at hg; simp at hg
  | ok g =>
    rw [hg] at h
    simp only [] at h
    cases hb : checkBounds nArr blk (fun i => s.X i - s.kappa * learningRate * g i) bounds with
    | error err' =>
      rw [hb] at h
      simp only [Except.error.injEq] at h
      subst h
      exact Or.inr (Or.inr ⟨_, hb⟩)
    | ok b =>
      rw [hb] at h
      cases b with
      | false => simp at h
      | true =>
        simp only [] at h
        cases hl : lossFun (fun i => s.X i - s.kappa * learningRate * g i) with
        | error err' =>
          rw [hl] at h
          simp only [Except.error.injEq] at h
          subst h
          exact Or.inr (Or.inl ⟨_, hl⟩)
        | ok newLoss =>
          rw [hl] at h
          simp only [] at h
          split_ifs at h

theorem Flt.lt_trans {a b c : Flt} (h1 : a.lt b) (h2 : b.lt c) : a.lt c := by
  cases a <;> cases b <;> cases c <;> simp_all [Flt.lt]
  exact _root_.lt_trans h1 h2

/-- The invariant of the loop. -/
structure GDInv (nArr : Nat) (blk : ι → Nat) (lossFun : (ι → ℝ) → Except Err Flt) (bounds : Option (List (EReal × EReal)))
    (X0 : ι → ℝ) (L0 : Flt) (s : GDState ι) : Prop where
  inBounds : InBounds? nArr blk bounds s.X
  loss : lossFun s.X = .ok s.loss
  kappa : 0 < s.kappa
  better : (s.X = X0 ∧ s.loss = L0) ∨ s.loss.lt L0

theorem GDInv.step {X0 : ι → ℝ} {L0 : Flt} {s s' : GDState ι} (hs : GDInv nArr blk lossFun bounds X0 L0 s)
    (h : gdStep nArr blk lossFun gradFun threshold learningRate bounds kappaZero s = .ok (.inl s')) :
    GDInv nArr blk lossFun bounds X0 L0 s' := by
  obtain ⟨g, hg, ⟨rfl, -⟩ | ⟨nl, hb, hl, hlt, -, rfl⟩⟩ := gdStep_inl h
  · exact ⟨hs.inBounds, hs.loss, half_pos hs.kappa, hs.better⟩
  · refine ⟨((checkBounds_true _ _ _ _).1 hb).2, hl, hs.kappa, Or.inr ?_⟩
    rcases hs.better with ⟨-, h2⟩ | h2
    · rw [← h2]; exact hlt
    · exact Flt.lt_trans hlt h2

/-- For a given point inside open bounds, small steps stay inside. -/
theorem exists_small [Finite ι] (X g : ι → ℝ) (lr : ℝ) (hX : InBounds? nArr blk bounds X) (hz : 0 < kappaZero) :
    ∃ K : ℝ, 0 < K ∧ ∀ κ, 0 < κ → κ ≤ K → InBounds? nArr blk bounds (fun i => X i - κ * lr * g i) ∧ κ * lr ≤ kappaZero := by
  have hcont : ∀ i, Filter.Tendsto (fun κ : ℝ => ((X i - κ * lr * g i : ℝ) : EReal)) (nhds 0) (nhds ((X i : ℝ) : EReal)) := by
    intro i
    have : Continuous (fun κ : ℝ => ((X i - κ * lr * g i : ℝ) : EReal)) := by
      apply continuous_coe_real_ereal.comp
      fun_prop
    have h := this.tendsto 0
    simpa using h
  have hb : ∀ᶠ κ : ℝ in nhds 0, InBounds? nArr blk bounds (fun i => X i - κ * lr * g i) := by
    cases bounds with
    | none => exact Filter.Eventually.of_forall (fun κ b hb => by simp at hb)
    | some b =>
      have hX' := hX b rfl
      have : ∀ i, ∀ᶠ κ : ℝ in nhds 0, ∀ lo hi, blk i < nArr → b[blk i]? = some (lo, hi) →
          lo < ((X i - κ * lr * g i : ℝ) : EReal) ∧ ((X i - κ * lr * g i : ℝ) : EReal) < hi := by
        intro i
        by_cases h1 : blk i < nArr
        · cases h2 : b[blk i]? with
          | none => exact Filter.Eventually.of_forall (fun κ lo hi _ hc => by simp at hc)
          | some q =>
            obtain ⟨lo, hi⟩ := q
            have h3 := hX' (blk i) lo hi h1 h2 i rfl
            filter_upwards [(hcont i).eventually (lt_mem_nhds h3.1), (hcont i).eventually (gt_mem_nhds h3.2)] with κ k1 k2
            intro lo' hi' _ heq
            simp only [Option.some.injEq, Prod.mk.injEq] at heq
            obtain ⟨rfl, rfl⟩ := heq
            exact ⟨k1, k2⟩
        · exact Filter.Eventually.of_forall (fun κ lo hi hc => absurd hc h1)
      have hall := Filter.eventually_all.2 this
      filter_upwards [hall] with κ hκ
      intro b' hb' k lo hi hk hkb i hi'
      simp only [Option.some.injEq] at hb'
      subst hb'
      subst hi'
      exact hκ i lo hi hk hkb
  have hlr : ∀ᶠ κ : ℝ in nhds 0, κ * lr ≤ kappaZero := by
    have : Filter.Tendsto (fun κ : ℝ => κ * lr) (nhds 0) (nhds (0 * lr)) :=
      (continuous_id.mul continuous_const).tendsto 0
    rw [zero_mul] at this
    filter_upwards [this.eventually (gt_mem_nhds hz)] with κ hκ using le_of_lt hκ
  obtain ⟨ε, hε, h⟩ := Metric.eventually_nhds_iff.1 (hb.and hlr)
  refine ⟨ε / 2, half_pos hε, fun κ h1 h2 => h ?_⟩
  rw [Real.dist_eq, sub_zero, abs_of_pos h1]
  linarith

/-- Number of moves left when every move gains at least the threshold. -/
noncomputable def movesLeft (threshold lower : ℝ) (loss : Flt) : Nat :=
  match loss with
  | none => 0
  | some x => Nat.ceil ((x - lower) / threshold)

theorem movesLeft_lt {threshold lower : ℝ} (hthr : 0 < threshold) {a b : Flt} (hlt : a.lt b) (habs : ¬ a.absSubLt b threshold)
    (hlow : ∀ v, a = some v → lower ≤ v) : movesLeft threshold lower a < movesLeft threshold lower b := by
  cases a with
  | none => simp [Flt.lt] at hlt
  | some x =>
    cases b with
    | none => simp [Flt.lt] at hlt
    | some y =>
      simp only [Flt.lt, Flt.absSubLt, not_lt] at hlt habs
      rw [abs_of_neg (by linarith)] at habs
      simp only [movesLeft]
      have h0 := hlow x rfl
      have h1 : 0 ≤ (x - lower) / threshold := div_nonneg (by linarith) hthr.le
      have h2 : (x - lower) / threshold + 1 ≤ (y - lower) / threshold := by
        rw [div_add_one hthr.ne']
        exact div_le_div_of_nonneg_right (by linarith) hthr.le
      have h3 := Nat.ceil_le_ceil h2
      rw [Nat.ceil_add_one h1] at h3
      omega

theorem gd_stops [Finite ι] (hthr : 0 < threshold) (hz : 0 < kappaZero) (hord : BoundsOrdered? nArr bounds) (lower : ℝ)
    (hlower : ∀ X v, InBounds? nArr blk bounds X → lossFun X = .ok (some v) → lower ≤ v) (X0 : ι → ℝ) (L0 : Flt) :
    ∀ (n : Nat) (s : GDState ι), GDInv nArr blk lossFun bounds X0 L0 s → movesLeft threshold lower s.loss = n →
      Stops (gdStep nArr blk lossFun gradFun threshold learningRate bounds kappaZero) s := by
  intro n
  induction n using Nat.strong_induction_on with
  | _ n ih =>
    intro s hs hn
    cases hg : s.gradients gradFun with
    | error err =>
      rw [stops_iff]
      unfold gdStep
      rw [hg]
      trivial
    | ok g =>
      obtain ⟨K, hK, hsmall⟩ := exists_small (nArr := nArr) (blk := blk) (bounds := bounds) s.X g learningRate hs.inBounds hz
      have inner : ∀ (m : Nat) (t : GDState ι), GDInv nArr blk lossFun bounds X0 L0 t → t.X = s.X → t.loss = s.loss →
          t.gradients gradFun = .ok g → t.kappa ≤ K * 2 ^ m →
          Stops (gdStep nArr blk lossFun gradFun threshold learningRate bounds kappaZero) t := by
        intro m
        induction m with
        | zero =>
          intro t ht hX hL htg hκ
          rw [stops_iff]
          cases hstep : gdStep nArr blk lossFun gradFun threshold learningRate bounds kappaZero t with
          | error err => trivial
          | ok v =>
            cases v with
            | inr r => trivial
            | inl t' =>
              simp only []
              have ht' := ht.step hstep
              obtain ⟨g', hg', ⟨rfl, h1⟩ | ⟨nl, hb, hl, hlt, hnl, rfl⟩⟩ := gdStep_inl hstep
              · exfalso
                rw [htg] at hg'
                simp only [Except.ok.injEq] at hg'
                subst hg'
                obtain ⟨k1, k2⟩ := hsmall t.kappa ht.kappa (by simpa using hκ)
                rcases h1 with h1 | h1
                · rw [hX, (checkBounds_true _ _ _ _).2 ⟨hord, k1⟩] at h1
                  simp at h1
                · exact absurd k2 (not_le.2 h1)
              · refine ih (movesLeft threshold lower nl) ?_ _ ht' rfl
                rw [← hn, ← hL]
                refine movesLeft_lt hthr hlt hnl (fun v hv => ?_)
                subst hv
                exact hlower _ _ ((checkBounds_true _ _ _ _).1 hb).2 hl
        | succ m ihm =>
          intro t ht hX hL htg hκ
          rw [stops_iff]
          cases hstep : gdStep nArr blk lossFun gradFun threshold learningRate bounds kappaZero t with
          | error err => trivial
          | ok v =>
            cases v with
            | inr r => trivial
            | inl t' =>
              simp only []
              have ht' := ht.step hstep
              obtain ⟨g', hg', ⟨rfl, h1⟩ | ⟨nl, hb, hl, hlt, hnl, rfl⟩⟩ := gdStep_inl hstep
              · rw [htg] at hg'
                simp only [Except.ok.injEq] at hg'
                subst hg'
                refine ihm _ ht' hX hL rfl ?_
                simp only
                rw [pow_succ] at hκ
                linarith
              · refine ih (movesLeft threshold lower nl) ?_ _ ht' rfl
                rw [← hn, ← hL]
                refine movesLeft_lt hthr hlt hnl (fun v hv => ?_)
                subst hv
                exact hlower _ _ ((checkBounds_true _ _ _ _).1 hb).2 hl
      obtain ⟨m, hm⟩ := pow_unbounded_of_one_lt (s.kappa / K) (one_lt_two (α := ℝ))
      refine inner m s hs rfl rfl hg ?_
      rw [div_lt_iff₀ hK] at hm
      linarith

end Verif
