import Verif.Proof.Topo
import Verif.Spec.TopoAny
import Mathlib.Data.List.Count

namespace Verif
open Spec
variable {p : Nat}

theorem topoInner_any (i : Fin p) (A0 : Adj p) (js : List (Fin p)) (R : Fin p → Fin p → Prop) [hR : ∀ a b, Decidable (R a b)] (A : Adj p) (sinks : List (Fin p))
    (hA : ∀ a b, A a b = if DirEdge A0 a b ∧ R a b then 0 else A0 a b) (hnd : js.Nodup) (hjs : ∀ j ∈ js, DirEdge A0 i j) :
    (∀ a b, (topoInner i js A sinks).1 a b = if DirEdge A0 a b ∧ (R a b ∨ a = i ∧ b ∈ js) then 0 else A0 a b) ∧
    ∀ v, (topoInner i js A sinks).2.count v = sinks.count v + if v ∈ js ∧ ∀ k, DirEdge A0 k v → k = i ∨ R k v then 1 else 0 := by
  induction js generalizing A sinks R hR with
  | nil => simp [topoInner, hA]
  | cons j js ih =>
    rw [List.nodup_cons] at hnd
    have hj := hjs j (by simp)
    have hA' : ∀ a b, setEntry A i j 0 a b = if DirEdge A0 a b ∧ (R a b ∨ a = i ∧ b = j) then 0 else A0 a b := by
      intro a b
      unfold setEntry
      by_cases h : a = i ∧ b = j
      · obtain ⟨rfl, rfl⟩ := h; simp [hj]
      · simp [h, hA]
    have hpa : (pa j (setEntry A i j 0)).card = 0 ↔ ∀ k, DirEdge A0 k j → k = i ∨ R k j := by
      rw [Finset.card_eq_zero, Finset.eq_empty_iff_forall_notMem]
      constructor
      · intro h k hk
        by_contra hc
        push Not at hc
        apply h k
        have hk' : ¬ DirEdge A0 j k := fun hc => hk.1 hc.2
        rw [mem_pa, hA', hA', if_neg (by simp [hc.1, hc.2]), if_neg (fun h => hk' h.1)]
        exact hk
      · intro h k hk
        rw [mem_pa, hA', hA'] at hk
        by_cases hd : DirEdge A0 k j
        · rw [if_pos ⟨hd, (h k hd).elim (fun h => .inr ⟨h, rfl⟩) .inl⟩] at hk
          exact hk.1 rfl
        · rw [if_neg (fun h => hd h.1)] at hk
          apply hd
          refine ⟨hk.1, ?_⟩
          have h2 := hk.2
          split at h2
          · rename_i hh; exact absurd hh.1.2 hk.1
          · exact h2
    obtain ⟨h1, h2⟩ := ih (fun a b => R a b ∨ a = i ∧ b = j) (setEntry A i j 0)
      (if (pa j (setEntry A i j 0)).card = 0 then j :: sinks else sinks) hA' hnd.2 (fun k hk => hjs k (by simp [hk]))
    simp only [topoInner]
    refine ⟨fun a b => ?_, fun v => ?_⟩
    · rw [h1]
      congr 2
      simp only [List.mem_cons, eq_iff_iff]
      tauto
    · rw [h2]
      by_cases hv : v = j
      · subst hv
        by_cases hc : ∀ k, DirEdge A0 k v → k = i ∨ R k v
        · rw [if_pos (hpa.2 hc), if_neg (fun h => hnd.1 h.1), if_pos ⟨by simp, hc⟩]; simp
        · rw [if_neg (fun h => hc (hpa.1 h)), if_neg (fun h => hnd.1 h.1), if_neg (fun h => hc h.2)]
      · have : List.count v (if (pa j (setEntry A i j 0)).card = 0 then j :: sinks else sinks) = List.count v sinks := by
          split
          · rw [List.count_cons_of_ne (fun h => hv h.symm)]
          · rfl
        rw [this]
        simp [hv]

/-- loop invariant of the loop of `topological_ordering` for any matrix and any start -/
structure AnyInv (A0 : Adj p) (S0 : List (Fin p)) (A : Adj p) (sinks ord : List (Fin p)) : Prop where
  mat : ∀ a b, A a b = if DirEdge A0 a b ∧ a ∈ ord then 0 else A0 a b
  cnt : ∀ v, sinks.count v + ord.count v = S0.count v + if (∃ u, DirEdge A0 u v) ∧ ∀ u, DirEdge A0 u v → u ∈ ord then 1 else 0
  freed : ∀ v, v ∈ sinks ∨ v ∈ ord → Freed A0 (· ∈ S0) v

theorem AnyInv.init (A0 : Adj p) (S0 : List (Fin p)) : AnyInv A0 S0 A0 S0 [] := by
  refine ⟨by simp, fun v => ?_, fun v hv => .zero (by simpa using hv)⟩
  rw [if_neg]
  · simp
  · rintro ⟨⟨u, hu⟩, h⟩
    simpa using h u hu

theorem AnyInv.step (it : SetIter p) {A0 A : Adj p} {S0 : List (Fin p)} {i : Fin p} {sinks ord : List (Fin p)}
    (h : AnyInv A0 S0 A (i :: sinks) ord) :
    AnyInv A0 S0 (topoInner i (it.toList (ch i A)) A sinks).1 (topoInner i (it.toList (ch i A)) A sinks).2 (ord ++ [i]) := by
  have hch : ∀ j, j ∈ it.toList (ch i A) ↔ DirEdge A0 i j ∧ i ∉ ord := by
    intro j
    rw [it.mem, mem_ch, h.mat, h.mat]
    constructor
    · rintro ⟨h1, h2⟩
      split at h1
      · exact absurd rfl h1
      · rename_i hn
        split at h2
        · rename_i hd; exact absurd hd.1.2 h1
        · exact ⟨⟨h1, h2⟩, fun hc => hn ⟨⟨h1, h2⟩, hc⟩⟩
    · rintro ⟨h1, h2⟩
      rw [if_neg (fun h => h2 h.2), if_neg (fun h => h1.1 h.1.2)]
      exact h1
  obtain ⟨h1, h2⟩ := topoInner_any i A0 (it.toList (ch i A)) (fun a _ => a ∈ ord) A sinks h.mat (it.nodup _)
    (fun j hj => ((hch j).1 hj).1)
  refine ⟨fun a b => ?_, fun v => ?_, fun v hv => ?_⟩
  · rw [h1]
    by_cases hc : DirEdge A0 a b ∧ a ∈ ord ++ [i]
    · rw [if_pos hc, if_pos]
      refine ⟨hc.1, ?_⟩
      rw [hch]
      by_cases ha : a ∈ ord
      · exact .inl ha
      · have : a = i := by simpa [ha] using hc.2
        subst this
        exact .inr ⟨rfl, hc.1, ha⟩
    · rw [if_neg hc, if_neg]
      rintro ⟨hd, ho | ho⟩
      · exact hc ⟨hd, by simp [ho]⟩
      · exact hc ⟨hd, by simp [ho.1]⟩
  · rw [h2]
    have hcnt := h.cnt v
    rw [List.count_cons] at hcnt
    rw [List.count_append, List.count_singleton]
    have key : (if v ∈ it.toList (ch i A) ∧ ∀ k, DirEdge A0 k v → k = i ∨ k ∈ ord then 1 else 0) +
        (if (∃ u, DirEdge A0 u v) ∧ ∀ u, DirEdge A0 u v → u ∈ ord then 1 else 0) =
        if (∃ u, DirEdge A0 u v) ∧ ∀ u, DirEdge A0 u v → u ∈ ord ++ [i] then 1 else 0 := by
      rw [if_congr (and_congr_left' (hch v)) rfl rfl]
      by_cases hall : (∃ u, DirEdge A0 u v) ∧ ∀ u, DirEdge A0 u v → u ∈ ord
      · rw [if_pos hall, if_neg (fun h => h.1.2 (hall.2 _ h.1.1)), if_pos ⟨hall.1, fun u hu => by simp [hall.2 u hu]⟩]
      · rw [if_neg hall]
        by_cases hn : (∃ u, DirEdge A0 u v) ∧ ∀ u, DirEdge A0 u v → u ∈ ord ++ [i]
        · have hx : ∃ u, DirEdge A0 u v ∧ u ∉ ord := by
            by_contra hc
            push Not at hc
            exact hall ⟨hn.1, hc⟩
          obtain ⟨u, hu, huo⟩ := hx
          have hui : u = i := by simpa [huo] using hn.2 u hu
          subst hui
          rw [if_pos hn, if_pos]
          exact ⟨⟨hu, huo⟩, fun k hk => by have := hn.2 k hk; simp at this; tauto⟩
        · rw [if_neg hn, if_neg]
          rintro ⟨⟨hd, hio⟩, hk⟩
          exact hn ⟨⟨i, hd⟩, fun u hu => by have := hk u hu; simp; tauto⟩
    omega
  · have hi : Freed A0 (· ∈ S0) i := h.freed i (.inl (by simp))
    have hord : ∀ v ∈ ord ++ [i], Freed A0 (· ∈ S0) v := by
      intro v hv
      rcases List.mem_append.1 hv with hv | hv
      · exact h.freed v (.inr hv)
      · rw [List.mem_singleton.1 hv]; exact hi
    rcases hv with hv | hv
    · by_cases hvs : v ∈ sinks
      · exact h.freed v (.inl (by simp [hvs]))
      · rw [← List.count_pos_iff, h2, List.count_eq_zero_of_not_mem hvs] at hv
        split at hv
        · rename_i hc
          rw [hch] at hc
          exact .parents ⟨i, hc.1.1⟩ (fun u hu => hord u (by have := hc.2 u hu; simp; tauto))
        · omega
    · exact hord v hv

theorem topoLoop_any (it : SetIter p) {A0 : Adj p} {S0 : List (Fin p)} (n : Nat) (A : Adj p)
    (sinks ord : List (Fin p)) (h : AnyInv A0 S0 A sinks ord) (A' : Adj p) (ord' : List (Fin p))
    (hr : topoLoop it n A sinks ord = .ok (A', ord')) : AnyInv A0 S0 A' [] ord' := by
  induction n generalizing A sinks ord with
  | zero =>
    cases sinks with
    | nil => rw [topoLoop] at hr; cases hr; exact h
    | cons i s => rw [topoLoop] at hr; cases hr
  | succ n ih =>
    cases sinks with
    | nil => rw [topoLoop] at hr; cases hr; exact h
    | cons i s =>
      rw [topoLoop] at hr
      exact ih _ _ _ (h.step it) hr

theorem AnyInv.mem_iff {A0 A : Adj p} {S0 ord : List (Fin p)} (h : AnyInv A0 S0 A [] ord) (v : Fin p) : v ∈ ord ↔ Freed A0 (· ∈ S0) v := by
  refine ⟨fun hv => h.freed v (.inr hv), fun hv => ?_⟩
  induction hv with
  | @zero v hz =>
    have := h.cnt v
    have h2 := List.count_pos_iff.2 hz
    rw [← List.count_pos_iff]
    simp at this
    omega
  | @parents v hex _ ih =>
    have := h.cnt v
    rw [if_pos ⟨hex, ih⟩] at this
    rw [← List.count_pos_iff]
    simp at this
    omega

open Classical in
/-- The loop of `topological_ordering` for any matrix and any start without repetitions. -/
theorem topoLoop_exact (it : SetIter p) (A : Adj p) (S0 : List (Fin p)) (hS : S0.Nodup) :
    ∃ r, topoLoop it (p * p + p) A S0 [] = .ok r ∧ (∀ v, v ∈ r.2 ↔ Freed A (· ∈ S0) v) ∧
      (∀ i j, r.1 i j = if DirEdge A i j ∧ Freed A (· ∈ S0) i then 0 else A i j) ∧
      ∀ v, r.2.count v = (if v ∈ S0 then 1 else 0) + if (∃ u, DirEdge A u v) ∧ ∀ u, DirEdge A u v → Freed A (· ∈ S0) u then 1 else 0 := by
  obtain ⟨r, hr⟩ := topoLoop_terminates it (p * p + p) A S0 [] (by
    have h1 := nnz_le A
    have h2 : S0.length ≤ p := by simpa using hS.length_le_card
    omega)
  have h := topoLoop_any it _ A S0 [] (AnyInv.init A S0) r.1 r.2 hr
  refine ⟨r, hr, h.mem_iff, fun i j => ?_, fun v => ?_⟩
  · rw [h.mat]
    simp only [h.mem_iff]
  · have := h.cnt v
    simp only [h.mem_iff] at this
    rw [List.count_nil, Nat.zero_add] at this
    rw [this]
    congr 1
    by_cases hv : v ∈ S0
    · rw [if_pos hv, List.count_eq_one_of_mem hS hv]
    · rw [if_neg hv, List.count_eq_zero_of_not_mem hv]

end Verif
