import Verif.Model.IntPaths
import Verif.Props.IntNodes
import Verif.Props.Paths

/-!
# C160: paths and separation for nodes given as negative integers or outside the graph
-/

namespace Verif

namespace Spec
/-- A sequence of different integers from `a` to `b` in which every integer but the first is a non-negative node, and a child or neighbour of the node
that its predecessor names. -/
def IntPath {p : Nat} (A : Adj p) (a b : Int) (l : List Int) : Prop :=
  l.head? = some a ∧ l.getLast? = some b ∧ l.Nodup ∧ l.IsChain fun i j => ∃ x y : Fin p, NamesNode i x ∧ j = y ∧ Edge A x y
end Spec

open Spec
variable {p : Nat}

/-! ### The search as one in a graph with two more nodes, which stand for the given integers -/

def bigCast : Fin p → Fin (p + 2) := Fin.castAdd 2

theorem bigCast_val (j : Fin p) : (bigCast j).val = j.val := rfl

theorem bigCast_inj : Function.Injective (bigCast (p := p)) := fun a b h => Fin.ext (by have := congrArg Fin.val h; simpa [bigCast_val] using this)

/-- The order of sets in the larger graph: the small nodes first, in their order. -/
def bigIter (it : SetIter p) : SetIter (p + 2) where
  toList s := (it.toList (Finset.univ.filter fun j => bigCast j ∈ s)).map bigCast ++
    (List.finRange (p + 2)).filter (fun x => decide (p ≤ x.val ∧ x ∈ s))
  nodup s := by
    rw [List.nodup_append]
    refine ⟨(it.nodup _).map bigCast_inj, (List.nodup_finRange _).filter _, ?_⟩
    intro a ha b hb hab
    subst hab
    obtain ⟨j, -, rfl⟩ := List.mem_map.1 ha
    have := (of_decide_eq_true (List.mem_filter.1 hb).2).1
    rw [bigCast_val] at this
    exact absurd j.isLt (by omega)
  mem s i := by
    rw [List.mem_append, List.mem_map, List.mem_filter]
    simp only [it.mem, Finset.mem_filter, Finset.mem_univ, true_and, List.mem_finRange, decide_eq_true_eq]
    constructor
    · rintro (⟨j, h, rfl⟩ | ⟨-, h⟩) <;> exact h
    · intro h
      by_cases hi : p ≤ i.val
      · exact .inr ⟨hi, h⟩
      · exact .inl ⟨⟨i.val, by omega⟩, (show bigCast ⟨i.val, by omega⟩ = i from Fin.ext rfl) ▸ h, Fin.ext rfl⟩

theorem bigIter_small (it : SetIter p) {s : Finset (Fin (p + 2))} {T : Finset (Fin p)} (h : ∀ x, x ∈ s ↔ ∃ j ∈ T, bigCast j = x) :
    (bigIter it).toList s = (it.toList T).map bigCast := by
  have h1 : (Finset.univ.filter fun j => bigCast j ∈ s) = T := by
    ext j
    rw [Finset.mem_filter, h]
    simp only [Finset.mem_univ, true_and]
    exact ⟨fun ⟨i, hi, he⟩ => bigCast_inj he ▸ hi, fun hj => ⟨j, hj, rfl⟩⟩
  have h2 : (List.finRange (p + 2)).filter (fun x => decide (p ≤ x.val ∧ x ∈ s)) = [] := by
    rw [List.filter_eq_nil_iff]
    intro x _
    rw [decide_eq_true_eq]
    rintro ⟨h3, h4⟩
    obtain ⟨j, -, rfl⟩ := (h x).1 h4
    rw [bigCast_val] at h3
    exact absurd j.isLt (by omega)
  change (it.toList (Finset.univ.filter fun j => bigCast j ∈ s)).map bigCast ++ (List.finRange (p + 2)).filter (fun x => decide (p ≤ x.val ∧ x ∈ s)) = _
  rw [h1, h2, List.append_nil]

/-- The small node that a node of the larger graph stands for. -/
def bigNode (k : Fin p) (x : Fin (p + 2)) : Fin p := if h : x.val < p then ⟨x.val, h⟩ else k

theorem bigNode_cast (k j : Fin p) : bigNode k (bigCast j) = j := by
  unfold bigNode
  rw [dif_pos (by rw [bigCast_val]; exact j.isLt)]
  rfl

def bigGraph (A : Adj p) (k : Fin p) : Adj (p + 2) := fun x y => if h : y.val < p then A (bigNode k x) ⟨y.val, h⟩ else 0

theorem bigGraph_edge {A : Adj p} {k : Fin p} {x y : Fin (p + 2)} : Edge (bigGraph A k) x y ↔ ∃ b, Edge A (bigNode k x) b ∧ bigCast b = y := by
  unfold Edge bigGraph
  constructor
  · intro h
    by_cases hy : y.val < p
    · rw [dif_pos hy] at h
      exact ⟨_, h, Fin.ext rfl⟩
    · rw [dif_neg hy] at h
      exact absurd rfl h
  · rintro ⟨b, h, rfl⟩
    rw [dif_pos (by rw [bigCast_val]; exact b.isLt)]
    exact h

def bigEnc (s t : Int) (x : Fin (p + 2)) : Int := if x.val < p then x.val else if x.val = p then s else t

theorem bigEnc_cast (s t : Int) (j : Fin p) : bigEnc s t (bigCast j) = j.val := by
  unfold bigEnc
  rw [bigCast_val, if_pos j.isLt]

theorem bigEnc_inj {s t : Int} (hs : ¬ (0 ≤ s ∧ s < p)) (ht : ¬ (0 ≤ t ∧ t < p)) (hst : s ≠ t) : Function.Injective (bigEnc (p := p) s t) := by
  intro a b h
  have ha := a.isLt
  have hb := b.isLt
  unfold bigEnc at h
  apply Fin.ext
  split at h <;> split at h <;> (try split at h) <;> (try split at h) <;> omega

/-- A stack entry in both graphs. -/
structure BothEntry (p : Nat) where
  node : Fin (p + 2)
  visited : List (Fin (p + 2))
  toVisit : List (Fin p)

def BothEntry.big (e : BothEntry p) : PathEntry (p + 2) := ⟨e.node, e.visited, e.toVisit.map bigCast⟩

def BothEntry.int (s t : Int) (e : BothEntry p) : ZPathEntry p := ⟨bigEnc s t e.node, e.visited.map (bigEnc s t), e.toVisit⟩

theorem zpathLoop_eq (it : SetIter p) (A : Adj p) (k : Fin p) {s t : Int} (hinj : Function.Injective (bigEnc (p := p) s t)) (D : Fin (p + 2)) (n : Nat) :
    ∀ (stack : List (BothEntry p)) (paths : List (List (Fin (p + 2)))),
      zpathLoop it A (bigEnc s t D) n (stack.map (BothEntry.int s t)) (paths.map (List.map (bigEnc s t))) =
        (pathLoop (bigIter it) (bigGraph A k) D n (stack.map BothEntry.big) paths).map (List.map (List.map (bigEnc s t))) := by
  induction n with
  | zero =>
    intro stack paths
    rcases stack with _ | ⟨e, stack⟩ <;> rfl
  | succ n ih =>
    intro stack paths
    rcases stack with _ | ⟨e, stack⟩
    · rfl
    · rw [List.map_cons, List.map_cons]
      unfold zpathLoop pathLoop
      by_cases hD : e.node = D
      · have h1 : (e.int s t).node = bigEnc s t D := congrArg (bigEnc s t) hD
        rw [if_pos h1, if_pos (show e.big.node = D from hD), ← ih]
        congr 1
        rw [List.map_append, List.map_cons, List.map_nil, List.map_append, List.map_cons, List.map_nil]
        rfl
      · have h1 : (e.int s t).node ≠ bigEnc s t D := fun h => hD (hinj h)
        rw [if_neg h1, if_neg (show ¬ e.big.node = D from hD)]
        rcases e with ⟨x, v, tv⟩
        rcases tv with _ | ⟨next, rest⟩
        · exact ih stack paths
        · have hset : (bigIter it).toList ((accessible (bigGraph A k) (bigCast next) \ v.toFinset) \ {x}) =
              (it.toList ((accessible A next).filter fun j => (j.val : Int) ∉ v.map (bigEnc s t) ∧ (j.val : Int) ≠ bigEnc s t x)).map bigCast := by
            apply bigIter_small
            intro y
            rw [Finset.mem_sdiff, Finset.mem_sdiff, mem_accessible, bigGraph_edge, bigNode_cast, Finset.mem_singleton, List.mem_toFinset]
            constructor
            · rintro ⟨⟨⟨b, hb, rfl⟩, h2⟩, h3⟩
              refine ⟨b, Finset.mem_filter.2 ⟨mem_accessible.2 hb, fun h => h2 ?_, fun h => h3 ?_⟩, rfl⟩
              · rw [← bigEnc_cast s t b, List.mem_map] at h
                obtain ⟨z, hz, he⟩ := h
                exact hinj he ▸ hz
              · rw [← bigEnc_cast s t b] at h
                exact hinj h
            · rintro ⟨b, hb, rfl⟩
              obtain ⟨h1, h2, h3⟩ := Finset.mem_filter.1 hb
              refine ⟨⟨⟨b, mem_accessible.1 h1, rfl⟩, fun h => h2 ?_⟩, fun h => h3 ?_⟩
              · rw [← bigEnc_cast s t b]
                exact List.mem_map_of_mem h
              · rw [← bigEnc_cast s t b, h]
          have := ih (⟨bigCast next, v ++ [x], (it.toList ((accessible A next).filter fun j => (j.val : Int) ∉ v.map (bigEnc s t) ∧
            (j.val : Int) ≠ bigEnc s t x)).reverse⟩ :: ⟨x, v, rest⟩ :: stack) paths
          simp only [List.map_cons, BothEntry.int, BothEntry.big, bigEnc_cast, List.map_append, List.map_nil, List.map_reverse, ← hset] at this
          simp only [BothEntry.int, BothEntry.big, List.map_cons]
          convert this
          ext j
          exact ⟨fun h => Finset.mem_filter.2 (Finset.mem_filter.1 h), fun h => Finset.mem_filter.2 (Finset.mem_filter.1 h)⟩

theorem chain_map {α β : Type} (f : α → β) {R : β → β → Prop} {E : α → α → Prop} {Ok : α → Prop} (h : ∀ x y, Ok x → (R (f x) (f y) ↔ E x y))
    (hok : ∀ x y, E x y → Ok y) (w : List α) : ∀ x, Ok x → (x :: w).IsChain E → ((x :: w).map f).IsChain R := by
  induction w with
  | nil => exact fun _ _ _ => by simp
  | cons y w ih =>
    intro x hx hc
    rw [List.isChain_cons_cons] at hc
    rw [List.map_cons, List.map_cons, List.isChain_cons_cons]
    exact ⟨(h x y hx).2 hc.1, ih y (hok x y hc.1) hc.2⟩

theorem chain_lift {α β : Type} (f : α → β) {R : β → β → Prop} {E : α → α → Prop} {Ok : α → Prop} (h : ∀ x y, Ok x → (R (f x) (f y) ↔ E x y))
    (hok : ∀ x y, E x y → Ok y) (hs : ∀ i j, R i j → ∃ y, f y = j) (l : List β) : ∀ x, Ok x → (f x :: l).IsChain R →
    ∃ w, l = w.map f ∧ (x :: w).IsChain E := by
  induction l with
  | nil => exact fun _ _ _ => ⟨[], rfl, by simp⟩
  | cons j l ih =>
    intro x hx hc
    rw [List.isChain_cons_cons] at hc
    obtain ⟨y, rfl⟩ := hs _ _ hc.1
    have he := (h x y hx).1 hc.1
    obtain ⟨w, rfl, hw⟩ := ih y (hok x y he) hc.2
    exact ⟨y :: w, rfl, List.isChain_cons_cons.2 ⟨he, hw⟩⟩

/-- C160: `semi_directed_paths` for any integers, in a graph without self-loops: all the paths of integers from `fro` to `to`, each once.  If `fro` names
no node, `IndexError`; `to` need not name one. -/
theorem C160_paths (it : SetIter p) (A : Adj p) (hl : NoLoops A) (a b : Int) :
    (InRange p a → ∃ paths, zsemiDirectedPaths it a b A = .ok paths ∧ paths.Nodup ∧ ∀ l, l ∈ paths ↔ IntPath A a b l) ∧
    (¬ InRange p a → zsemiDirectedPaths it a b A = .error .indexError) := by
  constructor
  · intro ha
    obtain ⟨k, hk, hn⟩ := nodeOf_ok ha
    obtain ⟨s, t, X, D, hs, ht, hst, hX, hD, hXk, hn'⟩ : ∃ (s t : Int) (X D : Fin (p + 2)), ¬ (0 ≤ s ∧ s < p) ∧ ¬ (0 ≤ t ∧ t < p) ∧ s ≠ t ∧
        bigEnc s t X = a ∧ bigEnc s t D = b ∧ bigNode k X = k ∧ (a < 0 → s = a) := by
      have hkl := k.isLt
      by_cases h0 : 0 ≤ a
      · have hak : a = k.val := by
          unfold NamesNode at hn
          omega
        by_cases hb : 0 ≤ b ∧ b < p
        · refine ⟨-1, -2, bigCast k, bigCast ⟨b.toNat, by omega⟩, by omega, by omega, by decide, ?_, ?_, bigNode_cast _ _, by omega⟩
          · rw [bigEnc_cast, hak]
          · rw [bigEnc_cast]
            exact Int.toNat_of_nonneg hb.1
        · refine ⟨-(b.natAbs : Int) - 1, b, bigCast k, ⟨p + 1, by omega⟩, by omega, hb, by omega, ?_, ?_, bigNode_cast _ _, by omega⟩
          · rw [bigEnc_cast, hak]
          · unfold bigEnc
            rw [if_neg (by simp), if_neg (by simp)]
      · have hX : ∀ t, bigEnc (p := p) a t ⟨p, by omega⟩ = a := by
          intro t
          unfold bigEnc
          rw [if_neg (by simp), if_pos rfl]
        have hX' : bigNode k ⟨p, by omega⟩ = k := by
          unfold bigNode
          rw [dif_neg (by simp)]
        by_cases hb : 0 ≤ b ∧ b < p
        · refine ⟨a, a - 1, ⟨p, by omega⟩, bigCast ⟨b.toNat, by omega⟩, by omega, by omega, by omega, hX _, ?_, hX', fun _ => rfl⟩
          rw [bigEnc_cast]
          exact Int.toNat_of_nonneg hb.1
        · by_cases hab : a = b
          · exact ⟨a, a - 1, ⟨p, by omega⟩, ⟨p, by omega⟩, by omega, by omega, by omega, hX _, (hX _).trans hab, hX', fun _ => rfl⟩
          · refine ⟨a, b, ⟨p, by omega⟩, ⟨p + 1, by omega⟩, by omega, hb, hab, hX _, ?_, hX', fun _ => rfl⟩
            unfold bigEnc
            rw [if_neg (by simp), if_neg (by simp)]
    have hinj := bigEnc_inj (p := p) hs ht hst
    have hl' : NoLoops (bigGraph A k) := by
      intro x
      by_contra h
      obtain ⟨c, hc, rfl⟩ := bigGraph_edge.1 h
      rw [bigNode_cast] at hc
      exact hc (hl c)
    obtain ⟨ps, h1, h2, h3⟩ := C07_semi_directed_paths (bigIter it) (bigGraph A k) hl' X D
    have hrun : zsemiDirectedPaths it a b A = .ok (ps.map (List.map (bigEnc s t))) := by
      unfold zsemiDirectedPaths
      rw [hk]
      dsimp only
      have h4 := zpathLoop_eq it A k hinj D (pathFuel (p + 2) (2 * (p + 2) + 1)) [⟨X, [], (it.toList (accessible A k)).reverse⟩] []
      have h5 : (bigIter it).toList (accessible (bigGraph A k) X) = (it.toList (accessible A k)).map bigCast := by
        apply bigIter_small
        intro y
        rw [mem_accessible, bigGraph_edge, hXk]
        simp only [mem_accessible]
      simp only [List.map_cons, List.map_nil, BothEntry.int, BothEntry.big, hX, hD, List.map_reverse, ← h5] at h4
      rw [h4]
      unfold semiDirectedPaths at h1
      rw [h1]
      rfl
    have hedge : ∀ x y : Fin (p + 2), (x = X ∨ x.val < p) → ((∃ u v : Fin p, NamesNode (bigEnc s t x) u ∧ bigEnc s t y = v ∧ Edge A u v) ↔ Edge (bigGraph A k) x y) := by
      intro x y hx
      have hname : NamesNode (bigEnc s t x) (bigNode k x) := by
        rcases hx with rfl | hx
        · rw [hX, hXk]
          exact hn
        · unfold bigEnc bigNode
          rw [if_pos hx, dif_pos hx]
          exact .inl rfl
      rw [bigGraph_edge]
      constructor
      · rintro ⟨u, v, hu, hv, he⟩
        rw [namesNode_unique hu hname] at he
        refine ⟨v, he, hinj ?_⟩
        rw [bigEnc_cast, hv]
      · rintro ⟨v, he, rfl⟩
        exact ⟨_, v, hname, bigEnc_cast s t v, he⟩
    have hok : ∀ x y : Fin (p + 2), Edge (bigGraph A k) x y → y = X ∨ y.val < p := by
      intro x y h
      obtain ⟨v, -, rfl⟩ := bigGraph_edge.1 h
      exact .inr v.isLt
    refine ⟨_, hrun, h2.map (List.map_injective_iff.2 hinj), fun l => ?_⟩
    rw [List.mem_map]
    constructor
    · rintro ⟨w, hw, rfl⟩
      obtain ⟨⟨w1, w2, w3⟩, w4⟩ := (h3 w).1 hw
      refine ⟨by rw [List.head?_map, w1, ← hX]; rfl, by rw [List.getLast?_map, w2, ← hD]; rfl, w4.map hinj, ?_⟩
      rcases w with _ | ⟨x, w⟩
      · cases w1
      · injection w1 with w1
        exact chain_map _ hedge hok w x (.inl w1) w3
    · rintro ⟨l1, l2, l4, l3⟩
      rcases l with _ | ⟨i, l⟩
      · cases l1
      · injection l1 with l1
        subst l1
        rw [← hX] at l3
        obtain ⟨w, rfl, hw⟩ := chain_lift (bigEnc s t) hedge hok (fun i j ⟨_, v, _, hv, _⟩ => ⟨bigCast v, by rw [bigEnc_cast, hv]⟩) l X (.inl rfl) l3
        have hmap : i :: w.map (bigEnc s t) = (X :: w).map (bigEnc s t) := by rw [List.map_cons, hX]
        refine ⟨X :: w, (h3 _).2 ⟨⟨rfl, ?_, hw⟩, ?_⟩, hmap.symm⟩
        · rw [hmap, List.getLast?_map, ← hD] at l2
          exact Option.map_injective hinj l2
        · rw [hmap] at l4
          exact List.Nodup.of_map _ l4
  · intro h
    unfold zsemiDirectedPaths
    rw [nodeOf_error h]

/-- C160: a negative `to`, or one outside the graph, is never reached, except by the path that consists of `fro` if both are the same integer. -/
theorem C160_unreachable (it : SetIter p) (A : Adj p) (hl : NoLoops A) (a b : Int) (ha : InRange p a) (hb : ¬ (0 ≤ b ∧ b < p)) (hab : a ≠ b) :
    zsemiDirectedPaths it a b A = .ok [] := by
  obtain ⟨ps, h1, -, h2⟩ := (C160_paths it A hl a b).1 ha
  rw [h1]
  congr 1
  rw [List.eq_nil_iff_forall_not_mem]
  intro l hm
  obtain ⟨l1, l2, -, l3⟩ := (h2 l).1 hm
  rcases List.eq_nil_or_concat l with rfl | ⟨u, z, rfl⟩
  · cases l1
  · rw [List.concat_eq_append] at *
    rw [List.getLast?_append_of_ne_nil _ (by simp), List.getLast?_singleton] at l2
    injection l2 with l2
    subst l2
    rcases List.eq_nil_or_concat u with rfl | ⟨u, y, rfl⟩
    · injection l1 with l1
      exact hab l1.symm
    · rw [List.concat_eq_append, List.append_assoc] at l3
      have := (List.isChain_append.1 l3).2.1
      rw [List.singleton_append, List.isChain_cons_cons] at this
      obtain ⟨-, v, -, hv, -⟩ := this.1
      have := v.isLt
      omega

theorem zsepLoop_spec (it : SetIter p) (S : Finset Int) (G : Adj p) (hl : NoLoops G) (L : List (Int × Int)) : (∀ q ∈ L, InRange p q.1) →
    ∃ r, zsepLoop it S G L = .ok r ∧ (r = true ↔ ∀ q ∈ L, ∀ l, IntPath G q.1 q.2 l → ∃ x ∈ l, x ∈ S) := by
  induction L with
  | nil => exact fun _ => ⟨true, rfl, by simp⟩
  | cons q L ih =>
    intro h
    obtain ⟨ps, h1, -, h2⟩ := (C160_paths it G hl q.1 q.2).1 (h q (by simp))
    obtain ⟨r, h3, h4⟩ := ih fun q hq => h q (by simp [hq])
    have hany : (ps.any (fun path => decide (path.toFinset ∩ S = ∅)) = true) ↔ ¬ ∀ l, IntPath G q.1 q.2 l → ∃ x ∈ l, x ∈ S := by
      rw [List.any_eq_true]
      push Not
      refine exists_congr fun l => and_congr (h2 l) ?_
      rw [decide_eq_true_eq, Finset.eq_empty_iff_forall_notMem]
      simp [Finset.mem_inter]
    unfold zsepLoop
    rw [h1]
    dsimp only
    by_cases hc : ps.any (fun path => decide (path.toFinset ∩ S = ∅)) = true
    · rw [if_pos hc]
      refine ⟨false, rfl, ?_⟩
      simp only [Bool.false_eq_true, false_iff]
      exact fun hall => hany.1 hc (hall q (by simp))
    · rw [if_neg hc]
      refine ⟨r, h3, h4.trans ?_⟩
      rw [hany, not_not] at hc
      constructor
      · intro h5 q' hq'
        rcases List.mem_cons.1 hq' with rfl | hq'
        · exact hc
        · exact h5 q' hq'
      · exact fun h5 q' hq' => h5 q' (by simp [hq'])

/-- C160: `separates` for sets of any integers.  Sets that share an integer are refused; sets that name the same node by different integers are not.
If all elements of `A` name nodes, the result tells whether every path of integers from `A` to `B` has an integer of `S` among its elements. -/
theorem C160_separates (it : SetIter p) (itz : IntIter) (S A B : Finset Int) (G : Adj p) (hl : NoLoops G) :
    ((A ∩ B).Nonempty ∨ (A ∩ S).Nonempty ∨ (B ∩ S).Nonempty → zseparates it itz S A B G = .error .valueError) ∧
    (A ∩ B = ∅ → A ∩ S = ∅ → B ∩ S = ∅ → (∀ a ∈ A, InRange p a) →
      ∃ r, zseparates it itz S A B G = .ok r ∧ (r = true ↔ ∀ a ∈ A, ∀ b ∈ B, ∀ l, IntPath G a b l → ∃ x ∈ l, x ∈ S)) := by
  constructor
  · intro h
    unfold zseparates
    rw [if_pos]
    simpa only [Finset.card_ne_zero] using h
  · intro h1 h2 h3 hA
    unfold zseparates
    rw [if_neg (by simp [h1, h2, h3])]
    have hm : ∀ q : Int × Int, q ∈ (itz.toList A).flatMap (fun a => (itz.toList B).map (fun b => (a, b))) ↔ q.1 ∈ A ∧ q.2 ∈ B := by
      rintro ⟨a, b⟩
      simp [List.mem_flatMap, itz.mem]
    obtain ⟨r, h4, h5⟩ := zsepLoop_spec it S G hl _ fun q hq => hA q.1 ((hm q).1 hq).1
    refine ⟨r, h4, h5.trans ?_⟩
    simp only [hm]
    exact ⟨fun h a ha b hb => h (a, b) ⟨ha, hb⟩, fun h q hq => h q.1 hq.1 q.2 hq.2⟩

/-- C160: if an element of `A` names no node, `separates` never says that the sets are separated: it raises `IndexError` or finds a path before; but if
`B` is empty it does not look at `A`. -/
theorem C160_separates_outside (it : SetIter p) (itz : IntIter) (S A B : Finset Int) (G : Adj p) (hl : NoLoops G)
    (h1 : A ∩ B = ∅) (h2 : A ∩ S = ∅) (h3 : B ∩ S = ∅) (hA : ∃ a ∈ A, ¬ InRange p a) :
    (B.Nonempty → zseparates it itz S A B G = .error .indexError ∨ zseparates it itz S A B G = .ok false) ∧
    (B = ∅ → zseparates it itz S A B G = .ok true) := by
  have hm : ∀ q : Int × Int, q ∈ (itz.toList A).flatMap (fun a => (itz.toList B).map (fun b => (a, b))) ↔ q.1 ∈ A ∧ q.2 ∈ B := by
    rintro ⟨a, b⟩
    simp [List.mem_flatMap, itz.mem]
  unfold zseparates
  rw [if_neg (by simp [h1, h2, h3])]
  constructor
  · rintro ⟨b, hb⟩
    obtain ⟨a, ha, har⟩ := hA
    have hq : ∃ q ∈ (itz.toList A).flatMap (fun a => (itz.toList B).map (fun b => (a, b))), ¬ InRange p q.1 := ⟨(a, b), (hm _).2 ⟨ha, hb⟩, har⟩
    revert hq
    generalize (itz.toList A).flatMap (fun a => (itz.toList B).map (fun b => (a, b))) = L
    induction L with
    | nil => rintro ⟨q, hq, -⟩; cases hq
    | cons q L ih =>
      intro hq
      unfold zsepLoop
      by_cases hr : InRange p q.1
      · obtain ⟨ps, h4, -⟩ := (C160_paths it G hl q.1 q.2).1 hr
        rw [h4]
        dsimp only
        split_ifs
        · exact .inr rfl
        · refine ih ?_
          obtain ⟨q', hq', h5⟩ := hq
          rcases List.mem_cons.1 hq' with rfl | hq'
          · exact absurd hr h5
          · exact ⟨q', hq', h5⟩
      · rw [(C160_paths it G hl q.1 q.2).2 hr]
        exact .inl rfl
  · rintro rfl
    have : (itz.toList A).flatMap (fun a => (itz.toList ∅).map (fun b => (a, b))) = [] := by
      rw [List.eq_nil_iff_forall_not_mem]
      intro q hq
      have := ((hm q).1 hq).2
      simp at this
    rw [this]
    rfl

/-- C160: so nodes given as negative integers are separated from everything by the empty set, whatever the graph. -/
theorem C160_negative_targets (it : SetIter p) (itz : IntIter) (S A B : Finset Int) (G : Adj p) (hl : NoLoops G)
    (h1 : A ∩ B = ∅) (h2 : A ∩ S = ∅) (h3 : B ∩ S = ∅) (hA : ∀ a ∈ A, InRange p a) (hB : ∀ b ∈ B, b < 0) : zseparates it itz S A B G = .ok true := by
  obtain ⟨r, h4, h5⟩ := (C160_separates it itz S A B G hl).2 h1 h2 h3 hA
  rw [h4, h5.2]
  intro a ha b hb l hp
  have hab : a ≠ b := by
    rintro rfl
    exact absurd (Finset.mem_inter.2 ⟨ha, hb⟩) (by simp [h1])
  obtain ⟨ps, h6, -, h7⟩ := (C160_paths it G hl a b).1 (hA a ha)
  rw [C160_unreachable it G hl a b (hA a ha) (by have := hB b hb; omega) hab] at h6
  injection h6 with h6
  have := (h7 l).2 hp
  rw [← h6] at this
  cases this

/-- An example for `C160_paths`: in `0 -> 1` there is a path from -2 to 1, and from -2 none to -1; the two name the nodes 0 and 1. -/
example : zsemiDirectedPaths (SetIter.incr 2) (-2) 1 (![![0, 1], ![0, 0]] : Adj 2) = .ok [[-2, 1]] ∧
    zsemiDirectedPaths (SetIter.incr 2) (-2) (-1) (![![0, 1], ![0, 0]] : Adj 2) = .ok [] ∧
    zsemiDirectedPaths (SetIter.incr 2) 2 0 (![![0, 1], ![0, 0]] : Adj 2) = .error .indexError := by
  refine ⟨?_, ?_, ?_⟩ <;> decide +kernel

/-- A path may come back to the node that a negative `fro` names: from -2 in `0 - 1` to 0. -/
example : zsemiDirectedPaths (SetIter.incr 2) (-2) 0 (![![0, 1], ![1, 0]] : Adj 2) = .ok [[-2, 1, 0]] := by
  decide +kernel

/-- An example for `C160_unreachable` and `C160_negative_targets`: 0 is said to be separated from -1 in `0 -> 1`. -/
example (it : SetIter 2) (itz : IntIter) : zsemiDirectedPaths it 0 (-1) (![![0, 1], ![0, 0]] : Adj 2) = .ok [] ∧
    zseparates it itz ∅ {0} {-1} (![![0, 1], ![0, 0]] : Adj 2) = .ok true ∧ zseparates it itz ∅ {0} {1} (![![0, 1], ![0, 0]] : Adj 2) = .ok false := by
  have hl : NoLoops (![![0, 1], ![0, 0]] : Adj 2) := by
    unfold NoLoops
    decide
  refine ⟨C160_unreachable it _ hl _ _ (by unfold InRange; decide) (by decide) (by decide),
    C160_negative_targets it itz _ _ _ _ hl (by decide) (by decide) (by decide) (by unfold InRange; decide) (by decide), ?_⟩
  obtain ⟨r, h1, h2⟩ := (C160_separates it itz ∅ {0} {1} _ hl).2 (by decide) (by decide) (by decide) (by unfold InRange; decide)
  rw [h1]
  congr 1
  by_contra h
  rw [Bool.not_eq_false, h2] at h
  have := h 0 (by decide) 1 (by decide) [0, 1] ⟨rfl, rfl, by decide, by
    rw [List.isChain_cons_cons]
    exact ⟨⟨0, 1, .inl rfl, rfl, by unfold Edge; decide⟩, by simp⟩⟩
  simp at this

/-- An example for `C160_separates_outside`: the node 5 in a graph with two nodes. -/
example (it : SetIter 2) (itz : IntIter) : zseparates it itz ∅ {5} ∅ (![![0, 1], ![0, 0]] : Adj 2) = .ok true ∧
    zseparates it itz ∅ {5} {1} (![![0, 1], ![0, 0]] : Adj 2) ≠ .ok true := by
  have hl : NoLoops (![![0, 1], ![0, 0]] : Adj 2) := by
    unfold NoLoops
    decide
  refine ⟨(C160_separates_outside it itz ∅ {5} ∅ _ hl (by decide) (by decide) (by decide) ⟨5, by decide, by unfold InRange; decide⟩).2 rfl, fun h => ?_⟩
  rcases (C160_separates_outside it itz ∅ {5} {1} _ hl (by decide) (by decide) (by decide) ⟨5, by decide, by unfold InRange; decide⟩).1 (by decide) with h' | h' <;>
    rw [h'] at h <;> cases h

end Verif
