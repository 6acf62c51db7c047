import Verif.Model.Paths
import Verif.Spec.Paths
import Verif.Proof.Topo

namespace Verif
open Spec
variable {p : Nat}

theorem mem_accessible {A : Adj p} {i j : Fin p} : j ∈ accessible A i ↔ Edge A i j := by
  unfold accessible Edge
  simp only [Finset.mem_union, mem_ch, mem_neighbors]
  tauto

/-! ### Termination -/

def entryDepth (e : PathEntry p) : Nat :=
  2 * (p - e.visited.toFinset.card) + (if e.node ∈ e.visited then 1 else 0)

def entryWeight (e : PathEntry p) : Nat := 1 + e.toVisit.length * (1 + pathFuel p (entryDepth e))

def stackWeight (s : List (PathEntry p)) : Nat := (s.map entryWeight).sum

def EntryOk (e : PathEntry p) : Prop := ∀ x ∈ e.toVisit, x ∉ e.visited

theorem pathFuel_mono {a b : Nat} (h : a ≤ b) : pathFuel p a ≤ pathFuel p b := by
  induction h with
  | refl => exact le_refl _
  | @step m hm ih =>
    refine le_trans ih ?_
    clear ih hm
    induction m with
    | zero => simp [pathFuel]
    | succ m ih =>
      change 1 + p * (1 + pathFuel p m) ≤ 1 + p * (1 + pathFuel p (m + 1))
      exact Nat.add_le_add_left (Nat.mul_le_mul_left _ (Nat.add_le_add_left ih _)) _

theorem push_weight {e : PathEntry p} {next : Fin p} {rest : List (Fin p)}
    (htv : e.toVisit = next :: rest) (hok : EntryOk e) (ntv : List (Fin p)) (hn : ntv.Nodup) :
    entryWeight (⟨next, e.visited ++ [e.node], ntv⟩ : PathEntry p) +
      entryWeight (⟨e.node, e.visited, rest⟩ : PathEntry p) < entryWeight e := by
  have hlen : ntv.length ≤ p := by simpa using hn.length_le_card
  have hd : entryDepth (⟨next, e.visited ++ [e.node], ntv⟩ : PathEntry p) + 1 ≤ entryDepth e := by
    have hnext : next ∉ e.visited := hok next (by rw [htv]; simp)
    have hcard : e.visited.toFinset.card ≤ p := by simpa using Finset.card_le_univ e.visited.toFinset
    unfold entryDepth
    by_cases hc : e.node ∈ e.visited
    · have h1 : (e.visited ++ [e.node]).toFinset = e.visited.toFinset := by
        ext x; simp only [List.mem_toFinset, List.mem_append, List.mem_singleton]
        constructor
        · rintro (h | rfl) <;> assumption
        · exact Or.inl
      have h2 : next ∉ e.visited ++ [e.node] := by
        simp only [List.mem_append, List.mem_singleton]
        rintro (h | rfl)
        · exact hnext h
        · exact hnext hc
      simp only [h1, if_neg h2, if_pos hc]
      omega
    · have h1 : (e.visited ++ [e.node]).toFinset.card = e.visited.toFinset.card + 1 := by
        have : (e.visited ++ [e.node]).toFinset = insert e.node e.visited.toFinset := by
          ext x; simp
        rw [this, Finset.card_insert_of_notMem (by simpa using hc)]
      have h3 : (e.visited ++ [e.node]).toFinset.card ≤ p := by
        simpa using Finset.card_le_univ (e.visited ++ [e.node]).toFinset
      simp only [h1, if_neg hc]
      split_ifs <;> omega
  unfold entryWeight
  rw [htv]
  simp only [List.length_cons]
  change 1 + ntv.length * (1 + pathFuel p (entryDepth (⟨next, e.visited ++ [e.node], ntv⟩ : PathEntry p))) +
    (1 + rest.length * (1 + pathFuel p (entryDepth e))) < 1 + (rest.length + 1) * (1 + pathFuel p (entryDepth e))
  generalize entryDepth (⟨next, e.visited ++ [e.node], ntv⟩ : PathEntry p) = d' at hd ⊢
  have hkey : 1 + ntv.length * (1 + pathFuel p d') ≤ pathFuel p (entryDepth e) := by
    calc 1 + ntv.length * (1 + pathFuel p d') ≤ 1 + p * (1 + pathFuel p d') :=
          Nat.add_le_add_left (Nat.mul_le_mul_right _ hlen) _
      _ = pathFuel p (d' + 1) := rfl
      _ ≤ _ := pathFuel_mono hd
  rw [Nat.add_mul]
  omega


theorem entryWeight_pos (e : PathEntry p) : 0 < entryWeight e := by unfold entryWeight; omega

/-! ### Exactness -/

/-- The sequences enumerated by the search: walks from `fro` that reach `dst` for the first time at their end and do not
come back to a node other than the immediately preceding one (a self-loop may be followed once). -/
def SdPath (A : Adj p) (fro dst : Fin p) (l : List (Fin p)) : Prop :=
  Walk A fro dst l ∧ dst ∉ l.dropLast ∧ ∀ u x y v, l = u ++ x :: y :: v → y ∉ u

/-- Paths still to be found below a stack entry. -/
def Future (A : Adj p) (fro dst : Fin p) (e : PathEntry p) (l : List (Fin p)) : Prop :=
  SdPath A fro dst l ∧ ((e.node = dst ∧ l = e.visited ++ [e.node]) ∨
    (e.node ≠ dst ∧ ∃ x ∈ e.toVisit, (e.visited ++ [e.node, x]) <+: l))

structure EntryValid (A : Adj p) (fro dst : Fin p) (e : PathEntry p) : Prop where
  head : (e.visited ++ [e.node]).head? = some fro
  chain : (e.visited ++ [e.node]).IsChain (Edge A)
  nodst : dst ∉ e.visited
  norep : ∀ u x y v, e.visited ++ [e.node] = u ++ x :: y :: v → y ∉ u
  edges : ∀ x ∈ e.toVisit, Edge A e.node x ∧ x ∉ e.visited
  nodup : e.toVisit.Nodup

theorem EntryValid.future_dst {A : Adj p} {fro dst : Fin p} {e : PathEntry p} (h : EntryValid A fro dst e)
    (hd : e.node = dst) (l : List (Fin p)) : Future A fro dst e l ↔ l = e.visited ++ [e.node] := by
  constructor
  · rintro ⟨_, (h1 | h1)⟩
    · exact h1.2
    · exact absurd hd h1.1
  · rintro rfl
    exact ⟨⟨⟨h.head, by rw [← hd]; simp, h.chain⟩, by simpa using h.nodst, h.norep⟩, Or.inl ⟨hd, rfl⟩⟩

theorem SdPath.prefix_next {A : Adj p} {fro dst : Fin p} {l u : List (Fin p)} {x : Fin p} (hl : SdPath A fro dst l)
    (hpre : (u ++ [x]) <+: l) :
    (x = dst ∧ l = u ++ [x]) ∨ (x ≠ dst ∧ ∃ y, Edge A x y ∧ y ∉ u ∧ (u ++ [x, y]) <+: l) := by
  obtain ⟨w, rfl⟩ := hpre
  cases w with
  | nil =>
    left
    have := hl.1.2.1
    simp at this
    exact ⟨this, by simp⟩
  | cons y w =>
    right
    refine ⟨?_, y, ?_, ?_, ⟨w, by simp⟩⟩
    · rintro rfl
      apply hl.2.1
      rw [List.dropLast_append_of_ne_nil (by simp)]
      simp
    · have := hl.1.2.2
      rw [List.append_assoc, List.singleton_append] at this
      exact (List.isChain_append_cons_cons.1 this).2.1
    · exact hl.2.2 u x y w (by simp)

theorem EntryValid.push {A : Adj p} {fro dst : Fin p} {e : PathEntry p} (h : EntryValid A fro dst e) (it : SetIter p)
    (hd : e.node ≠ dst) {x : Fin p} (hx : Edge A e.node x ∧ x ∉ e.visited) :
    EntryValid A fro dst ⟨x, e.visited ++ [e.node],
      (it.toList ((accessible A x \ e.visited.toFinset) \ {e.node})).reverse⟩ ∧
    ∀ l, Future A fro dst ⟨x, e.visited ++ [e.node],
      (it.toList ((accessible A x \ e.visited.toFinset) \ {e.node})).reverse⟩ l ↔
        SdPath A fro dst l ∧ (e.visited ++ [e.node, x]) <+: l := by
  have hmem : ∀ y, y ∈ (it.toList ((accessible A x \ e.visited.toFinset) \ {e.node})).reverse ↔
      Edge A x y ∧ y ∉ e.visited ++ [e.node] := by
    intro y
    rw [List.mem_reverse, it.mem]
    simp only [Finset.mem_sdiff, mem_accessible, List.mem_toFinset, Finset.mem_singleton, List.mem_append,
      List.mem_singleton]
    tauto
  have hv : EntryValid A fro dst ⟨x, e.visited ++ [e.node],
      (it.toList ((accessible A x \ e.visited.toFinset) \ {e.node})).reverse⟩ := by
    refine ⟨?_, ?_, ?_, ?_, fun y hy => (hmem y).1 hy, List.nodup_reverse.2 (it.nodup _)⟩
    · rw [List.head?_append, h.head]; rfl
    · rw [List.append_assoc, List.singleton_append, List.isChain_append_cons_cons]
      exact ⟨h.chain, hx.1, by simp⟩
    · simp only [List.mem_append, List.mem_singleton]
      rintro (h1 | h1)
      · exact h.nodst h1
      · exact hd h1.symm
    · intro u a b v huv
      rcases List.eq_nil_or_concat v with rfl | ⟨v', c, rfl⟩
      · have h1 : (e.visited ++ [e.node]) ++ [x] = (u ++ [a]) ++ [b] := by simpa using huv
        obtain ⟨h2, h3⟩ := List.append_inj' h1 rfl
        obtain ⟨h4, h5⟩ := List.append_inj' h2 rfl
        simp at h3 h5
        rw [← h4, ← h3]
        exact hx.2
      · have h1 : (e.visited ++ [e.node]) ++ [x] = (u ++ a :: b :: v') ++ [c] := by simpa using huv
        obtain ⟨h2, _⟩ := List.append_inj' h1 rfl
        exact h.norep u a b v' h2
  refine ⟨hv, fun l => ?_⟩
  constructor
  · rintro ⟨h1, h2⟩
    refine ⟨h1, ?_⟩
    rcases h2 with ⟨_, h2⟩ | ⟨_, y, _, h2⟩
    · rw [h2]; simp
    · refine List.IsPrefix.trans ?_ h2
      exact ⟨[y], by simp⟩
  · rintro ⟨h1, h2⟩
    refine ⟨h1, ?_⟩
    have h3 : ((e.visited ++ [e.node]) ++ [x]) <+: l := by simpa using h2
    rcases h1.prefix_next h3 with h4 | ⟨h4, y, h5, h6, h7⟩
    · exact Or.inl h4
    · exact Or.inr ⟨h4, y, (hmem y).2 ⟨h5, h6⟩, h7⟩

theorem prefix_next_unique {l u : List (Fin p)} {x y : Fin p} (h1 : (u ++ [x]) <+: l) (h2 : (u ++ [y]) <+: l) : x = y := by
  obtain ⟨w, rfl⟩ := h1
  obtain ⟨w', h⟩ := h2
  rw [List.append_assoc, List.append_assoc] at h
  have := List.append_cancel_left h
  simp at this
  exact this.1.symm

/-- The loop finds every path of the futures of the stack entries once. -/
theorem pathLoop_spec (it : SetIter p) {A : Adj p} {fro dst : Fin p} (n : Nat) : ∀ (stack : List (PathEntry p))
    (paths : List (List (Fin p))), (∀ e ∈ stack, EntryValid A fro dst e) → stackWeight stack ≤ n → paths.Nodup →
    (∀ e ∈ stack, ∀ l, Future A fro dst e l → l ∉ paths) →
    stack.Pairwise (fun e e' => ∀ l, Future A fro dst e l → ¬ Future A fro dst e' l) →
    ∃ paths', pathLoop it A dst n stack paths = .ok paths' ∧ paths'.Nodup ∧
      ∀ l, l ∈ paths' ↔ l ∈ paths ∨ ∃ e ∈ stack, Future A fro dst e l := by
  induction n with
  | zero =>
    intro stack paths _ hw hnd _ _
    cases stack with
    | nil => exact ⟨paths, rfl, hnd, by simp⟩
    | cons e s =>
      exfalso
      have := entryWeight_pos e
      simp [stackWeight] at hw
      omega
  | succ n ih =>
    intro stack paths hv hw hnd hdis hpw
    cases stack with
    | nil => exact ⟨paths, rfl, hnd, by simp⟩
    | cons e s =>
      have hve := hv e (by simp)
      have hvs : ∀ e' ∈ s, EntryValid A fro dst e' := fun e' h => hv e' (List.mem_cons_of_mem _ h)
      have hws : entryWeight e + stackWeight s ≤ n + 1 := by simpa [stackWeight] using hw
      have hpos := entryWeight_pos e
      rw [List.pairwise_cons] at hpw
      unfold pathLoop
      by_cases hd : e.node = dst
      · rw [if_pos hd]
        have hF := hve.future_dst hd
        obtain ⟨ps, h1, h2, h3⟩ := ih s (paths ++ [e.visited ++ [e.node]]) hvs (by omega)
          (by
            rw [List.nodup_append]
            refine ⟨hnd, by simp, ?_⟩
            intro a ha b hb
            rw [List.mem_singleton] at hb
            rintro rfl
            exact hdis e (by simp) _ ((hF _).2 hb) ha)
          (by
            intro e' he' l hl
            rw [List.mem_append, List.mem_singleton]
            rintro (h | h)
            · exact hdis e' (List.mem_cons_of_mem _ he') l hl h
            · exact hpw.1 e' he' l ((hF l).2 h) hl)
          hpw.2
        refine ⟨ps, h1, h2, fun l => ?_⟩
        rw [h3]
        simp only [List.mem_append, List.mem_cons, exists_eq_or_imp, hF]
        tauto
      · rw [if_neg hd]
        cases htv : e.toVisit with
        | nil =>
          simp only []
          obtain ⟨ps, h1, h2, h3⟩ := ih s paths hvs (by omega) hnd
            (fun e' he' => hdis e' (List.mem_cons_of_mem _ he')) hpw.2
          refine ⟨ps, h1, h2, fun l => ?_⟩
          rw [h3]
          simp only [List.mem_cons, exists_eq_or_imp]
          have : ¬ Future A fro dst e l := by
            rintro ⟨_, h | h⟩
            · exact hd h.1
            · obtain ⟨_, x, hx, _⟩ := h
              rw [htv] at hx
              simp at hx
          tauto
        | cons next rest =>
          simp only []
          have hnext := hve.edges next (by rw [htv]; simp)
          obtain ⟨hv1, hF1⟩ := hve.push it hd hnext
          have hnd' := hve.nodup
          rw [htv, List.nodup_cons] at hnd'
          have hv2 : EntryValid A fro dst ⟨e.node, e.visited, rest⟩ :=
            ⟨hve.head, hve.chain, hve.nodst, hve.norep, fun x hx => hve.edges x (by rw [htv]; exact List.mem_cons_of_mem _ hx),
              hnd'.2⟩
          have hsplit : ∀ l, Future A fro dst e l ↔
              (SdPath A fro dst l ∧ (e.visited ++ [e.node, next]) <+: l) ∨
                Future A fro dst ⟨e.node, e.visited, rest⟩ l := by
            intro l
            unfold Future
            rw [htv]
            simp only [hd, false_and, false_or, ne_eq, not_false_eq_true, true_and, List.mem_cons, exists_eq_or_imp]
            tauto
          have hdisj : ∀ l, SdPath A fro dst l ∧ (e.visited ++ [e.node, next]) <+: l →
              ¬ Future A fro dst ⟨e.node, e.visited, rest⟩ l := by
            rintro l ⟨_, h1⟩ ⟨_, h2 | h2⟩
            · exact hd h2.1
            · obtain ⟨_, x, hx, h3⟩ := h2
              have : next = x := prefix_next_unique (u := e.visited ++ [e.node]) (by simpa using h1) (by simpa using h3)
              subst this
              exact hnd'.1 hx
          obtain ⟨ps, h1, h2, h3⟩ := ih (⟨next, e.visited ++ [e.node],
              (it.toList ((accessible A next \ e.visited.toFinset) \ {e.node})).reverse⟩ ::
              ⟨e.node, e.visited, rest⟩ :: s) paths
            (by
              intro e' he'
              simp only [List.mem_cons] at he'
              rcases he' with rfl | rfl | he'
              · exact hv1
              · exact hv2
              · exact hvs e' he')
            (by
              have := push_weight htv (fun x hx => (hve.edges x hx).2)
                (it.toList ((accessible A next \ e.visited.toFinset) \ {e.node})).reverse
                (List.nodup_reverse.2 (it.nodup _))
              simp only [stackWeight, List.map_cons, List.sum_cons] at hws ⊢
              omega)
            hnd
            (by
              intro e' he' l hl
              simp only [List.mem_cons] at he'
              rcases he' with rfl | rfl | he'
              · exact hdis e (by simp) l ((hsplit l).2 (Or.inl ((hF1 l).1 hl)))
              · exact hdis e (by simp) l ((hsplit l).2 (Or.inr hl))
              · exact hdis e' (List.mem_cons_of_mem _ he') l hl)
            (by
              rw [List.pairwise_cons, List.pairwise_cons]
              refine ⟨?_, ?_, hpw.2⟩
              · intro e' he' l hl
                rw [List.mem_cons] at he'
                rcases he' with rfl | he'
                · exact hdisj l ((hF1 l).1 hl)
                · exact hpw.1 e' he' l ((hsplit l).2 (Or.inl ((hF1 l).1 hl)))
              · intro e' he' l hl
                exact hpw.1 e' he' l ((hsplit l).2 (Or.inr hl)))
          refine ⟨ps, h1, h2, fun l => ?_⟩
          rw [h3]
          simp only [List.mem_cons, exists_eq_or_imp, hF1, hsplit]
          tauto

theorem semiDirectedPaths_spec (it : SetIter p) (A : Adj p) (fro dst : Fin p) :
    ∃ paths, semiDirectedPaths it fro dst A = .ok paths ∧ paths.Nodup ∧ ∀ l, l ∈ paths ↔ SdPath A fro dst l := by
  have hmem : ∀ y, y ∈ (it.toList (accessible A fro)).reverse ↔ Edge A fro y := by
    intro y; rw [List.mem_reverse, it.mem, mem_accessible]
  have hv : EntryValid A fro dst ⟨fro, [], (it.toList (accessible A fro)).reverse⟩ :=
    ⟨rfl, by simp, by simp, by
      intro u x y v h
      have := congrArg List.length h
      simp at this
      omega, fun x hx => ⟨(hmem x).1 hx, by simp⟩, List.nodup_reverse.2 (it.nodup _)⟩
  obtain ⟨ps, h1, h2, h3⟩ := pathLoop_spec it (A := A) (fro := fro) (dst := dst) (pathFuel p (2 * p + 1))
    [⟨fro, [], (it.toList (accessible A fro)).reverse⟩] [] (by
      intro e he
      rw [List.mem_singleton] at he
      subst he
      exact hv) (by
      have hlen : (it.toList (accessible A fro)).length ≤ p := by simpa using (it.nodup (accessible A fro)).length_le_card
      simp only [stackWeight, List.map_cons, List.map_nil, List.sum_cons, List.sum_nil, entryWeight, entryDepth,
        List.length_reverse]
      simp only [List.toFinset_nil, Finset.card_empty, List.not_mem_nil, if_false, Nat.sub_zero, Nat.add_zero]
      exact Nat.add_le_add_left (Nat.mul_le_mul_right _ hlen) _) (by simp) (by simp) (by simp)
  refine ⟨ps, h1, h2, fun l => ?_⟩
  rw [h3]
  simp only [List.not_mem_nil, false_or, List.mem_singleton, exists_eq_left]
  constructor
  · exact fun h => h.1
  · intro h
    refine ⟨h, ?_⟩
    have hpre : ([] ++ [fro]) <+: l := by
      have := h.1.1
      cases l with
      | nil => simp at this
      | cons a l => simp at this; subst this; simp
    rcases h.prefix_next hpre with h4 | ⟨h4, y, h5, h6, h7⟩
    · exact Or.inl h4
    · exact Or.inr ⟨h4, y, (hmem y).2 h5, h7⟩

/-- Without self-loops these are exactly the simple paths. -/
theorem sdPath_iff_simplePath {A : Adj p} (hl : NoLoops A) {fro dst : Fin p} {l : List (Fin p)} :
    SdPath A fro dst l ↔ SimplePath A fro dst l := by
  constructor
  · rintro ⟨h1, h2, h3⟩
    refine ⟨h1, ?_⟩
    have hch := h1.2.2
    have key : ∀ m, m <+: l → m.Nodup := by
      intro m
      induction m using List.reverseRecOn with
      | nil => simp
      | append_singleton m y ih =>
        intro hm
        have hm' : m <+: l := List.IsPrefix.trans (by simp) hm
        rw [List.nodup_append]
        refine ⟨ih hm', by simp, ?_⟩
        intro a ha b hb
        rw [List.mem_singleton] at hb
        subst hb
        rintro rfl
        obtain ⟨v, hv⟩ := hm
        rcases List.eq_nil_or_concat m with rfl | ⟨u, x, rfl⟩
        · simp at ha
        · rw [List.concat_eq_append] at ha hv
          have hv' : l = u ++ x :: a :: v := by rw [← hv]; simp
          rw [List.mem_append, List.mem_singleton] at ha
          rcases ha with ha | rfl
          · exact h3 u x a v hv' ha
          · rw [hv'] at hch
            exact (List.isChain_append_cons_cons.1 hch).2.1 (hl a)
    exact key l (List.prefix_refl l)
  · rintro ⟨h1, h2⟩
    refine ⟨h1, ?_, ?_⟩
    · intro hmem
      rcases List.eq_nil_or_concat l with rfl | ⟨u, x, rfl⟩
      · simp at hmem
      · have := h1.2.1
        rw [List.concat_eq_append] at *
        simp at this hmem
        subst this
        rw [List.nodup_append] at h2
        exact h2.2.2 x hmem x (by simp) rfl
    · rintro u x y v rfl hy
      rw [List.nodup_append] at h2
      exact h2.2.2 y hy y (by simp) rfl

theorem SimplePath.sdPath {A : Adj p} {fro dst : Fin p} {l : List (Fin p)} (h : SimplePath A fro dst l) :
    SdPath A fro dst l := by
  obtain ⟨h1, h2⟩ := h
  refine ⟨h1, ?_, ?_⟩
  · intro hmem
    rcases List.eq_nil_or_concat l with rfl | ⟨u, x, rfl⟩
    · simp at hmem
    · have := h1.2.1
      rw [List.concat_eq_append] at *
      simp at this hmem
      subst this
      rw [List.nodup_append] at h2
      exact h2.2.2 x hmem x (by simp) rfl
  · rintro u x y v rfl hy
    rw [List.nodup_append] at h2
    exact h2.2.2 y hy y (by simp) rfl

/-- Every walk contains a simple path with the same ends. -/
theorem Walk.exists_simple {A : Adj p} {b : Fin p} (l : List (Fin p)) : ∀ a, Walk A a b l →
    ∃ l', SimplePath A a b l' ∧ ∀ x ∈ l', x ∈ l := by
  induction l with
  | nil => intro a h; simp [Walk] at h
  | cons c l ih =>
    intro a h
    obtain ⟨h1, h2, h3⟩ := h
    simp at h1
    subst h1
    cases l with
    | nil => exact ⟨[c], ⟨⟨rfl, h2, h3⟩, by simp⟩, by simp⟩
    | cons d l =>
      rw [List.isChain_cons_cons] at h3
      obtain ⟨l', hs, hsub⟩ := ih d ⟨rfl, by simpa using h2, h3.2⟩
      by_cases hc : c ∈ l'
      · obtain ⟨u, v, rfl⟩ := List.append_of_mem hc
        refine ⟨c :: v, ⟨⟨rfl, ?_, ?_⟩, ?_⟩, ?_⟩
        · have := hs.1.2.1
          rw [List.getLast?_append] at this
          cases hv : (c :: v).getLast? with
          | none => simp at hv
          | some z => rw [hv] at this; simpa using this
        · exact (List.isChain_append.1 hs.1.2.2).2.1
        · exact (List.nodup_append.1 hs.2).2.1
        · intro x hx
          exact List.mem_cons_of_mem _ (hsub x (by simp at hx ⊢; tauto))
      · refine ⟨c :: l', ⟨⟨rfl, ?_, ?_⟩, List.nodup_cons.2 ⟨hc, hs.2⟩⟩, ?_⟩
        · cases l' with
          | nil => have := hs.1.1; simp at this
          | cons e l'' => simpa using hs.1.2.1
        · cases l' with
          | nil => simp
          | cons e l'' =>
            have := hs.1.1
            simp at this
            subst this
            exact List.isChain_cons_cons.2 ⟨h3.1, hs.1.2.2⟩
        · intro x hx
          rw [List.mem_cons] at hx ⊢
          rcases hx with h | h
          · exact Or.inl h
          · exact Or.inr (hsub x h)

/-! ### separates -/

theorem sepLoop_spec (it : SetIter p) (S : Finset (Fin p)) (G : Adj p) (l : List (Fin p × Fin p)) :
    ∃ b, sepLoop it S G l = .ok b ∧ (b = true ↔ ∀ e ∈ l, ∀ w, Walk G e.1 e.2 w → ∃ s ∈ w, s ∈ S) := by
  induction l with
  | nil => exact ⟨true, rfl, by simp⟩
  | cons e l ih =>
    obtain ⟨a, b⟩ := e
    obtain ⟨ps, h1, _, h3⟩ := semiDirectedPaths_spec it G a b
    obtain ⟨r, h4, h5⟩ := ih
    have hany : (ps.any (fun path => decide (path.toFinset ∩ S = ∅)) = true) ↔
        ¬ ∀ w, Walk G a b w → ∃ s ∈ w, s ∈ S := by
      rw [List.any_eq_true]
      constructor
      · rintro ⟨w, hw, he⟩ hall
        rw [decide_eq_true_eq] at he
        obtain ⟨s, hs1, hs2⟩ := hall w ((h3 w).1 hw).1
        have : s ∈ w.toFinset ∩ S := by simp [hs1, hs2]
        rw [he] at this
        simp at this
      · intro hn
        push Not at hn
        obtain ⟨w, hw, hS⟩ := hn
        obtain ⟨w', hw1, hw2⟩ := Walk.exists_simple w a hw
        refine ⟨w', (h3 w').2 (SimplePath.sdPath hw1), ?_⟩
        rw [decide_eq_true_eq, Finset.eq_empty_iff_forall_notMem]
        intro x hx
        simp only [Finset.mem_inter, List.mem_toFinset] at hx
        exact hS x (hw2 x hx.1) hx.2
    unfold sepLoop
    rw [h1]
    simp only []
    by_cases hc : ps.any (fun path => decide (path.toFinset ∩ S = ∅)) = true
    · rw [if_pos hc]
      refine ⟨false, rfl, ?_⟩
      simp only [Bool.false_eq_true, false_iff]
      intro hall
      exact hany.1 hc (hall (a, b) (by simp))
    · rw [if_neg hc]
      refine ⟨r, h4, ?_⟩
      rw [hany, not_not] at hc
      rw [h5]
      constructor
      · intro h e he
        rcases List.mem_cons.1 he with rfl | he
        · exact hc
        · exact h e he
      · intro h e he
        exact h e (List.mem_cons_of_mem _ he)

/-! ### chain_component -/

structure CompInv (A : Adj p) (i : Fin p) (visited toVisit : Finset (Fin p)) : Prop where
  mem : i ∈ visited ∪ toVisit
  reach : ∀ x ∈ visited ∪ toVisit, Relation.ReflTransGen (UndEdge A) i x
  disj : Disjoint visited toVisit
  closed : ∀ x ∈ visited, ∀ y, UndEdge A x y → y ∈ visited ∪ toVisit

theorem CompInv.step {A : Adj p} {i : Fin p} {visited toVisit : Finset (Fin p)} (h : CompInv A i visited toVisit)
    {j : Fin p} (hj : Relation.ReflTransGen (UndEdge A) i j) :
    CompInv A i (insert j visited) ((toVisit ∪ neighbors j A) \ insert j visited) := by
  refine ⟨?_, ?_, Finset.disjoint_sdiff, ?_⟩
  · have := h.mem
    simp only [Finset.mem_union, Finset.mem_insert, Finset.mem_sdiff, mem_neighbors] at this ⊢
    tauto
  · intro x hx
    simp only [Finset.mem_union, Finset.mem_insert, Finset.mem_sdiff, mem_neighbors] at hx
    rcases hx with (rfl | hx) | ⟨hx | hx, _⟩
    · exact hj
    · exact h.reach x (Finset.mem_union_left _ hx)
    · exact h.reach x (Finset.mem_union_right _ hx)
    · exact hj.tail hx
  · intro x hx y hxy
    simp only [Finset.mem_union, Finset.mem_insert, Finset.mem_sdiff, mem_neighbors] at hx ⊢
    rcases hx with rfl | hx
    · have : A x y ≠ 0 ∧ A y x ≠ 0 := hxy
      tauto
    · have := h.closed x hx y hxy
      rw [Finset.mem_union] at this
      tauto

theorem componentPass_spec {A : Adj p} {i : Fin p} (js : List (Fin p)) : ∀ visited toVisit : Finset (Fin p),
    CompInv A i visited toVisit → (∀ j ∈ js, Relation.ReflTransGen (UndEdge A) i j) →
    CompInv A i (componentPass A js visited toVisit).1 (componentPass A js visited toVisit).2 ∧
      (∀ j ∈ js, j ∈ (componentPass A js visited toVisit).1) ∧ visited ⊆ (componentPass A js visited toVisit).1 := by
  induction js with
  | nil => intro v t h _; exact ⟨h, by simp, by simp [componentPass]⟩
  | cons j js ih =>
    intro v t h hj
    obtain ⟨h1, h2, h3⟩ := ih _ _ (h.step (hj j (by simp))) (fun k hk => hj k (List.mem_cons_of_mem _ hk))
    refine ⟨h1, ?_, ?_⟩
    · intro k hk
      rcases List.mem_cons.1 hk with rfl | hk
      · exact h3 (Finset.mem_insert_self _ _)
      · exact h2 k hk
    · exact (Finset.subset_insert _ _).trans h3

theorem componentLoop_spec (it : SetIter p) {A : Adj p} {i : Fin p} (n : Nat) : ∀ visited toVisit : Finset (Fin p),
    CompInv A i visited toVisit → p < n + visited.card →
    ∃ V, componentLoop it A n visited toVisit = .ok V ∧ CompInv A i V ∅ := by
  induction n with
  | zero =>
    intro v t _ h
    have : v.card ≤ p := by simpa using Finset.card_le_univ v
    omega
  | succ n ih =>
    intro v t h hn
    unfold componentLoop
    by_cases ht : t.card > 0
    · rw [if_pos ht]
      obtain ⟨h1, h2, h3⟩ := componentPass_spec (it.toList t) v t h (fun j hj =>
        h.reach j (Finset.mem_union_right _ ((it.mem t j).1 hj)))
      refine ih _ _ h1 ?_
      obtain ⟨j, hj⟩ := Finset.card_pos.1 ht
      have hjv : j ∉ v := fun hc => Finset.disjoint_left.1 h.disj hc hj
      have : v.card < (componentPass A (it.toList t) v t).1.card := by
        apply Finset.card_lt_card
        rw [Finset.ssubset_iff_of_subset h3]
        exact ⟨j, h2 j ((it.mem t j).2 hj), hjv⟩
      omega
    · rw [if_neg ht]
      have : t = ∅ := by
        rw [← Finset.card_eq_zero]; omega
      subst this
      exact ⟨v, rfl, h⟩

theorem chainComponent_spec (it : SetIter p) (i : Fin p) (G : Adj p) :
    ∃ V, chainComponent it i G = .ok V ∧ ∀ j, j ∈ V ↔ Relation.ReflTransGen (UndEdge G) i j := by
  have hund : ∀ x y, UndEdge (onlyUndirected G) x y ↔ UndEdge G x y := by
    intro x y
    unfold UndEdge
    rw [onlyUndirected_ne, onlyUndirected_ne]
    tauto
  have hrel : UndEdge (onlyUndirected G) = UndEdge G := by
    funext x y; exact propext (hund x y)
  obtain ⟨V, h1, h2⟩ := componentLoop_spec it (A := onlyUndirected G) (i := i) (p + 1) ∅ {i}
    ⟨by simp, by
      intro x hx
      simp at hx
      subst hx
      exact Relation.ReflTransGen.refl, by simp, by simp⟩ (by simp)
  refine ⟨V, h1, fun j => ?_⟩
  rw [← hrel]
  constructor
  · intro hj
    exact h2.reach j (by simpa using hj)
  · intro hj
    induction hj with
    | refl => simpa using h2.mem
    | tail _ hab ih => simpa using h2.closed _ ih _ hab

end Verif
