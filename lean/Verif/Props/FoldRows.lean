import Verif.Props.Lln
import Verif.Props.ListUtils

/-!
# The numbers of the rows in the folds of `split_data`
-/

namespace Verif

open Spec Filter Topology

variable {p : Nat}

/-- `rng.shuffle` moves the elements of an array without looking at them. -/
def Spec.Blind (r : Rng) : Prop := ∀ {α β : Type} (f : α → β) (l : List α), r.shuffle (l.map f) = (r.shuffle l).map f

/-- The numbers of the rows that `split_data` puts in the `i`-th of three folds. -/
def foldRows (r : Rng) (a b c : Rat) (N i : Nat) : List ℕ :=
  (pieces (r.shuffle (List.range N)) ([a, b, c].map fun x => (pyRound (N * x)).toNat)).getD i []

theorem pieces_map {α β : Type} (f : α → β) (l : List α) (ks : List Nat) : pieces (l.map f) ks = (pieces l ks).map (List.map f) := by
  induction ks generalizing l with
  | nil => rfl
  | cons k ks ih => simp only [pieces, List.map_cons, ← List.map_take, ← List.map_drop, ih]

theorem foldRows_nodup (r : Rng) (a b c : Rat) (N i : Nat) : (foldRows r a b c N i).Nodup := by
  have h0 : (r.shuffle (List.range N)).Nodup := (r.shuffle_perm _).nodup_iff.2 List.nodup_range
  have : ∀ (ks : List Nat) (l : List ℕ) (i : Nat), l.Nodup → ((pieces l ks).getD i []).Nodup := by
    intro ks
    induction ks with
    | nil => intro l i _; simp [pieces]
    | cons k ks ih =>
      intro l i h
      cases i with
      | zero => simpa [pieces] using h.sublist (List.take_sublist k l)
      | succ i => simpa [pieces] using ih _ i (h.sublist (List.drop_sublist k l))
  exact this _ _ _ h0

theorem toNat_round_ge (x : Rat) : x - 1 / 2 ≤ ((pyRound x).toNat : Rat) := by
  have h1 := abs_le.1 (pyRound_close x)
  have h2 : (pyRound x : Rat) ≤ ((pyRound x).toNat : Rat) := by exact_mod_cast Int.self_le_toNat _
  linarith [h1.2]

theorem toNat_round_le (x : Rat) (hx : 0 ≤ x) : ((pyRound x).toNat : Rat) ≤ x + 1 / 2 := by
  have h1 := abs_le.1 (pyRound_close x)
  have h2 : ((pyRound x).toNat : Rat) = pyRound x := by exact_mod_cast Int.toNat_of_nonneg (pyRound_nonneg hx)
  linarith [h1.1]

/-- The folds have, up to rounding, the asked sizes. -/
theorem foldRows_length (r : Rng) {a b c : Rat} (ha : 0 ≤ a) (hb : 0 ≤ b) (hc : 0 ≤ c) (hs : a + b + c = 1) (N : Nat) :
    N * a - 1 ≤ ((foldRows r a b c N 0).length : Rat) ∧ N * b - 1 ≤ ((foldRows r a b c N 1).length : Rat) ∧
      N * c - 1 ≤ ((foldRows r a b c N 2).length : Rat) := by
  have hN : (0 : Rat) ≤ N := by positivity
  have hlen : (r.shuffle (List.range N)).length = N := by rw [(r.shuffle_perm _).length_eq, List.length_range]
  have a1 := toNat_round_ge (N * a)
  have b1 := toNat_round_ge (N * b)
  have c1 := toNat_round_ge (N * c)
  have a2 := toNat_round_le (N * a) (mul_nonneg hN ha)
  have b2 := toNat_round_le (N * b) (mul_nonneg hN hb)
  have c2 := toNat_round_le (N * c) (mul_nonneg hN hc)
  have hNs : (N : Rat) * a + N * b + N * c = N := by rw [← mul_add, ← mul_add, hs, mul_one]
  have hNa := mul_nonneg hN ha
  have hNb := mul_nonneg hN hb
  have hNc := mul_nonneg hN hc
  unfold foldRows
  simp only [List.map_cons, List.map_nil, pieces, List.getD_cons_zero, List.getD_cons_succ, List.length_take, List.length_drop, hlen]
  generalize (pyRound (N * a)).toNat = x at *
  generalize (pyRound (N * b)).toNat = y at *
  generalize (pyRound (N * c)).toNat = z at *
  refine ⟨?_, ?_, ?_⟩
  · push_cast
    exact le_min (by linarith) (by linarith)
  · push_cast
    refine le_min (by linarith) ?_
    have : (N : Rat) ≤ ((N - x : ℕ) : Rat) + x := by exact_mod_cast (by omega : N ≤ N - x + x)
    linarith
  · push_cast
    refine le_min (by linarith) ?_
    have : (N : Rat) ≤ ((N - x - y : ℕ) : Rat) + x + y := by exact_mod_cast (by omega : N ≤ N - x - y + x + y)
    linarith

theorem foldRows_tendsto (r : ℕ → Rng) {a b c : Rat} (ha : 0 < a) (hb : 0 < b) (hc : 0 < c) (hs : a + b + c = 1) {N : ℕ → ℕ} (hN : Tendsto N atTop atTop) :
    ∀ i < 3, Tendsto (fun n => (foldRows (r n) a b c (N n) i).length) atTop atTop := by
  have key : ∀ (x : Rat) (L : ℕ → ℕ), 0 < x → (∀ n, N n * x - 1 ≤ (L n : Rat)) → Tendsto L atTop atTop := by
    intro x L hx h
    refine tendsto_atTop.2 fun m => ?_
    obtain ⟨K, hK⟩ := exists_nat_ge ((m + 1 : Rat) / x)
    filter_upwards [hN.eventually_ge_atTop K] with n hn
    have h1 : (m + 1 : Rat) ≤ N n * x := (div_le_iff₀ hx).1 (hK.trans (by exact_mod_cast hn))
    have h2 := h n
    exact_mod_cast (show (m : Rat) ≤ L n by linarith)
  intro i hi
  have h := fun n => foldRows_length (r n) ha.le hb.le hc.le hs (N n)
  interval_cases i
  · exact key a _ ha fun n => (h n).1
  · exact key b _ hb fun n => (h n).2.1
  · exact key c _ hc fun n => (h n).2.2

/-- What `split_data` returns for three folds. -/
theorem splitData_rows {Ω : Type} {e : Nat} (rng : Nat → Rng) (hblind : ∀ k, Blind (rng k)) {a b c : Rat} (ha : 0 ≤ a) (hb : 0 ≤ b) (hc : 0 ≤ c) (hs : a + b + c = 1)
    (X : Fin e → ℕ → Ω → Fin p → ℝ) (N : Fin e → ℕ) (ω : Ω) :
    splitData rng (List.ofFn fun k => rowsOf (X k) (List.range (N k)) ω) [a, b, c] =
      .ok [List.ofFn fun k => rowsOf (X k) (foldRows (rng k) a b c (N k) 0) ω, List.ofFn fun k => rowsOf (X k) (foldRows (rng k) a b c (N k) 1) ω,
        List.ofFn fun k => rowsOf (X k) (foldRows (rng k) a b c (N k) 2) ω] := by
  obtain ⟨folds, h1, h2, h3, h4⟩ := splitData_ok rng (List.ofFn fun k => rowsOf (X k) (List.range (N k)) ω) [a, b, c] (by simp; linarith)
    (by simp; exact ⟨ha, hb, hc⟩)
  rw [h1]
  obtain ⟨f0, f1, f2, rfl⟩ : ∃ f0 f1 f2, folds = [f0, f1, f2] := by
    match folds, h2 with
    | [x, y, z], _ => exact ⟨x, y, z, rfl⟩
  have hk : ∀ k : Fin e, [f0.getD k [], f1.getD k [], f2.getD k []] = [rowsOf (X k) (foldRows (rng k) a b c (N k) 0) ω,
      rowsOf (X k) (foldRows (rng k) a b c (N k) 1) ω, rowsOf (X k) (foldRows (rng k) a b c (N k) 2) ω] := by
    intro k
    have := h4 k (rowsOf (X k) (List.range (N k)) ω) (by simp)
    simp only [foldsOf, List.map_cons, List.map_nil] at this
    rw [this]
    unfold rowsOf foldRows
    rw [hblind, pieces_map]
    simp [pieces]
  have hext : ∀ (f : List (Sample p)) (i : Nat), f.length = e → (∀ k : Fin e, f.getD k [] = rowsOf (X k) (foldRows (rng k) a b c (N k) i) ω) →
      f = List.ofFn fun k => rowsOf (X k) (foldRows (rng k) a b c (N k) i) ω := by
    intro f i hl h
    refine List.ext_getElem (by simp [hl]) fun n hn hn' => ?_
    have := h ⟨n, hl ▸ hn⟩
    simp only [List.getD_eq_getElem?_getD, List.getElem?_eq_getElem hn, Option.getD_some] at this
    rw [this]
    simp
  simp only [List.mem_cons, List.not_mem_nil, or_false, forall_eq_or_imp, forall_eq, List.length_ofFn] at h3
  simp only [List.cons.injEq, and_true] at hk
  rw [hext f0 0 h3.1 fun k => (hk k).1, hext f1 1 h3.2.1 fun k => (hk k).2.1, hext f2 2 h3.2.2 fun k => (hk k).2.2]

end Verif
