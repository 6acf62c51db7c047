import Verif.Model.Score

/-!
# C67: the constructor of `Score`
-/

namespace Verif

namespace Spec

/-- Data the constructor accepts, with the sample sizes it stores: a pair of arrays of the same length, the first one holding
square arrays of the same size, or a list of arrays with at least two dimensions, the same number of columns, and not exactly one row. -/
inductive ValidData : PyData → List Nat → Prop
  | pair (lens : List (Option Nat)) (nObs : List Nat) (h : lens.length = nObs.length) (p : Nat) (hp : ∀ x ∈ lens, x = some p) :
      ValidData (.pair lens nObs) nObs
  | list (shapes : List (Nat × List Nat)) (p : Nat) (hn : ∀ x ∈ shapes, x.1 ≠ 1) :
      ValidData (.list (shapes.map (fun x => .arr (x.1 :: p :: x.2)))) (shapes.map Prod.fst)

/-- Which exception the data cause, if any. -/
inductive BadData : PyData → Err → Prop
  | other : BadData .other .typeError
  | pairLength (lens nObs) (h : lens.length ≠ nObs.length) : BadData (.pair lens nObs) .valueError
  | pairItem (lens nObs) (h : lens.length = nObs.length) (hx : none ∈ lens) : BadData (.pair lens nObs) .typeError
  | pairSizes (lens nObs) (h : lens.length = nObs.length) (hx : none ∉ lens) (a b : Nat) (ha : some a ∈ lens) (hb : some b ∈ lens)
      (hab : a ≠ b) : BadData (.pair lens nObs) .valueError
  | item (items) (h : .other ∈ items) : BadData (.list items) .typeError
  | dim (items) (h : .other ∉ items) (s : List Nat) (hs : .arr s ∈ items) (hlen : s.length < 2) : BadData (.list items) .indexError
  | columns (items) (h : .other ∉ items) (h2 : ∀ s, .arr s ∈ items → 2 ≤ s.length) (n n' a b : Nat) (r r' : List Nat)
      (ha : .arr (n :: a :: r) ∈ items) (hb : .arr (n' :: b :: r') ∈ items) (hab : a ≠ b) : BadData (.list items) .valueError
  | single (items) (h : .other ∉ items) (h2 : ∀ s, .arr s ∈ items → 2 ≤ s.length) (r : List Nat)
      (hs : .arr (1 :: r) ∈ items) : BadData (.list items) .valueError

end Spec

open Spec

theorem lensOf_ok {lens : List (Option Nat)} (h : none ∉ lens) : ∃ ps, lensOf lens = .ok ps ∧ lens = ps.map some := by
  induction lens with
  | nil => exact ⟨[], rfl, rfl⟩
  | cons x rest ih =>
    cases x with
    | none => simp at h
    | some n =>
      obtain ⟨ps, h1, h2⟩ := ih (fun hc => h (List.mem_cons_of_mem _ hc))
      exact ⟨n :: ps, by simp [lensOf, h1], by simp [h2]⟩

theorem lensOf_error {lens : List (Option Nat)} (h : none ∈ lens) : lensOf lens = .error .typeError := by
  induction lens with
  | nil => simp at h
  | cons x rest ih =>
    cases x with
    | none => rfl
    | some n =>
      have : none ∈ rest := by simpa using h
      simp [lensOf, ih this]

theorem allArrays_ok {items : List PyItem} (h : .other ∉ items) : ∃ ss, allArrays items = .ok ss ∧ items = ss.map .arr := by
  induction items with
  | nil => exact ⟨[], rfl, rfl⟩
  | cons x rest ih =>
    cases x with
    | other => simp at h
    | arr s =>
      obtain ⟨ss, h1, h2⟩ := ih (fun hc => h (List.mem_cons_of_mem _ hc))
      exact ⟨s :: ss, by simp [allArrays, h1], by simp [h2]⟩

theorem allArrays_error {items : List PyItem} (h : .other ∈ items) : allArrays items = .error .typeError := by
  induction items with
  | nil => simp at h
  | cons x rest ih =>
    cases x with
    | other => rfl
    | arr s =>
      have : PyItem.other ∈ rest := by simpa using h
      simp [allArrays, ih this]

theorem secondDims_ok {ss : List (List Nat)} (h : ∀ s ∈ ss, 2 ≤ s.length) : secondDims ss = .ok (ss.map (fun s => s.getD 1 0)) := by
  induction ss with
  | nil => rfl
  | cons s rest ih =>
    have h1 := h s (by simp)
    rw [secondDims, ih (fun x hx => h x (by simp [hx]))]
    simp [List.getD_eq_getElem?_getD, List.getElem?_eq_getElem (show 1 < s.length by omega)]

theorem secondDims_error {ss : List (List Nat)} {s : List Nat} (h : s ∈ ss) (hs : s.length < 2) :
    secondDims ss = .error .indexError := by
  induction ss with
  | nil => simp at h
  | cons t rest ih =>
    rw [secondDims]
    cases ht : t[1]? with
    | none => rfl
    | some n =>
      simp only []
      rcases List.mem_cons.1 h with rfl | h
      · rw [List.getElem?_eq_none (by omega)] at ht; simp at ht
      · rw [ih h]

theorem dedup_le_one {l : List Nat} : l.dedup.length ≤ 1 ↔ ∀ a ∈ l, ∀ b ∈ l, a = b := by
  constructor
  · intro h a ha b hb
    have ha' := List.mem_dedup.2 ha
    have hb' := List.mem_dedup.2 hb
    match hd : l.dedup, h with
    | [], _ => rw [hd] at ha'; simp at ha'
    | [x], _ =>
      rw [hd] at ha' hb'
      rw [List.mem_singleton.1 ha', List.mem_singleton.1 hb']
  · intro h
    have hnd := List.nodup_dedup l
    match hd : l.dedup with
    | [] => simp
    | [x] => simp
    | x :: y :: r =>
      rw [hd] at hnd
      have hx : x ∈ l := List.mem_dedup.1 (by rw [hd]; simp)
      have hy : y ∈ l := List.mem_dedup.1 (by rw [hd]; simp)
      have := h x hx y hy
      subst this
      simp at hnd

/-- C67: data that are bad in one of the listed ways cause the listed exception. -/
theorem C67_bad (data : PyData) (solverKnown : Bool) (err : Err) (h : BadData data err) :
    initScore data solverKnown = .error err := by
  unfold initScore
  cases h with
  | other => rfl
  | pairLength lens nObs h => simp [h]
  | pairItem lens nObs h hx => simp [h, lensOf_error hx]
  | pairSizes lens nObs h hx a b ha hb hab =>
    obtain ⟨ps, h1, h2⟩ := lensOf_ok hx
    have : 1 < ps.dedup.length := by
      by_contra hc
      push Not at hc
      subst h2
      exact hab (dedup_le_one.1 hc a (by simpa using ha) b (by simpa using hb))
    simp [h, h1, this]
  | item items h => simp [allArrays_error h]
  | dim items h s hs hlen =>
    obtain ⟨ss, h1, rfl⟩ := allArrays_ok h
    have : s ∈ ss := by simpa using hs
    simp [h1, secondDims_error this hlen]
  | columns items h h2 n n' a b r r' ha hb hab =>
    obtain ⟨ss, h1, rfl⟩ := allArrays_ok h
    have ha' : (n :: a :: r) ∈ ss := by simpa using ha
    have hb' : (n' :: b :: r') ∈ ss := by simpa using hb
    have hd := secondDims_ok (ss := ss) (fun s hs => h2 s (by simpa using hs))
    have : 1 < (ss.map (fun s => s.getD 1 0)).dedup.length := by
      by_contra hc
      push Not at hc
      exact hab (dedup_le_one.1 hc a (List.mem_map.2 ⟨_, ha', by simp⟩) b (List.mem_map.2 ⟨_, hb', by simp⟩))
    simp only [h1, hd, if_pos this]
  | single items h h2 r hs =>
    obtain ⟨ss, h1, rfl⟩ := allArrays_ok h
    have hs' : (1 :: r) ∈ ss := by simpa using hs
    have hd := secondDims_ok (ss := ss) (fun s hs => h2 s (by simpa using hs))
    have hany : (ss.map (fun s => s.getD 0 0)).any (· == 1) = true := by
      rw [List.any_eq_true]
      exact ⟨1, List.mem_map.2 ⟨_, hs', by simp⟩, by simp⟩
    simp only [h1, hd]
    split_ifs <;> rfl

/-- C67: valid data and a known solver are accepted, and the sample sizes stored (one per environment); with an unknown solver
`ValueError` is raised. -/
theorem C67_valid (data : PyData) (solverKnown : Bool) (nObs : List Nat) (h : ValidData data nObs) :
    initScore data solverKnown = if solverKnown then .ok nObs else .error .valueError := by
  unfold initScore
  cases h with
  | pair lens _ h p hp =>
    obtain ⟨ps, h1, h2⟩ := lensOf_ok (lens := lens) (fun hc => by simpa using hp _ hc)
    have : ps.dedup.length ≤ 1 := by
      refine dedup_le_one.2 (fun a ha b hb => ?_)
      have h3 := hp (some a) (by rw [h2]; simpa using ha)
      have h4 := hp (some b) (by rw [h2]; simpa using hb)
      simp only [Option.some.injEq] at h3 h4
      rw [h3, h4]
    simp only [h1, h, ne_eq, not_true_eq_false, if_false, if_neg (not_lt.2 this)]
    cases solverKnown <;> rfl
  | list shapes p hn =>
    have hne : PyItem.other ∉ shapes.map (fun x => PyItem.arr (x.1 :: p :: x.2)) := by simp
    obtain ⟨ss, h1, h2⟩ := allArrays_ok hne
    have hss : ss = shapes.map (fun x => x.1 :: p :: x.2) := by
      have hinj : Function.Injective PyItem.arr := fun a b hab => by simpa using hab
      apply hinj.list_map
      rw [← h2, List.map_map]
      rfl
    have hd := secondDims_ok (ss := ss) (by rw [hss]; intro s hs; obtain ⟨x, -, rfl⟩ := List.mem_map.1 hs; simp)
    have hu : (ss.map (fun s => s.getD 1 0)).dedup.length ≤ 1 := by
      rw [hss]
      refine dedup_le_one.2 (fun a ha b hb => ?_)
      simp only [List.map_map, List.mem_map] at ha hb
      obtain ⟨_, -, rfl⟩ := ha
      obtain ⟨_, -, rfl⟩ := hb
      simp
    have hm : ss.map (fun s => s.getD 0 0) = shapes.map Prod.fst := by
      rw [hss, List.map_map]
      refine List.map_congr_left (fun x _ => by simp)
    have hany : ¬ (shapes.map Prod.fst).any (· == 1) = true := by
      rw [List.any_eq_true]
      rintro ⟨x, hx, h3⟩
      obtain ⟨y, hy, rfl⟩ := List.mem_map.1 hx
      exact hn y hy (by simpa using h3)
    simp only [h1, hd, if_neg (not_lt.2 hu), hm, if_neg hany]
    cases solverKnown <;> rfl

/-- C67: data are valid or bad, so the two theorems above describe all cases. -/
theorem C67_exhaustive (data : PyData) : (∃ nObs, ValidData data nObs) ∨ ∃ err, BadData data err := by
  cases data with
  | other => exact Or.inr ⟨_, .other⟩
  | pair lens nObs =>
    by_cases h : lens.length = nObs.length
    · by_cases hx : none ∈ lens
      · exact Or.inr ⟨_, .pairItem lens nObs h hx⟩
      · by_cases hab : ∃ a b, some a ∈ lens ∧ some b ∈ lens ∧ a ≠ b
        · obtain ⟨a, b, ha, hb, hab⟩ := hab
          exact Or.inr ⟨_, .pairSizes lens nObs h hx a b ha hb hab⟩
        · push Not at hab
          left
          cases lens with
          | nil => exact ⟨_, .pair _ _ h 0 (by simp)⟩
          | cons x rest =>
            cases x with
            | none => simp at hx
            | some p =>
              refine ⟨_, .pair _ _ h p (fun y hy => ?_)⟩
              cases y with
              | none => exact absurd hy hx
              | some q => rw [hab p q (by simp) hy]
    · exact Or.inr ⟨_, .pairLength lens nObs h⟩
  | list items =>
    by_cases h : .other ∈ items
    · exact Or.inr ⟨_, .item items h⟩
    · by_cases h2 : ∀ s, .arr s ∈ items → 2 ≤ s.length
      · by_cases hc : ∃ (n n' a b : Nat) (r r' : List Nat), .arr (n :: a :: r) ∈ items ∧ .arr (n' :: b :: r') ∈ items ∧ a ≠ b
        · obtain ⟨n, n', a, b, r, r', ha, hb, hab⟩ := hc
          exact Or.inr ⟨_, .columns items h h2 n n' a b r r' ha hb hab⟩
        · by_cases h1 : ∃ r, .arr (1 :: r) ∈ items
          · obtain ⟨r, hr⟩ := h1
            exact Or.inr ⟨_, .single items h h2 r hr⟩
          · push Not at hc h1
            left
            obtain ⟨ss, -, rfl⟩ := allArrays_ok h
            have key : ∃ p, ∀ s ∈ ss, ∃ n r, s = n :: p :: r := by
              cases ss with
              | nil => exact ⟨0, by simp⟩
              | cons t rest =>
                have htl := h2 t (by simp)
                match t, htl with
                | n :: p :: r, _ =>
                  refine ⟨p, fun s hs => ?_⟩
                  have hsl := h2 s (by simpa using hs)
                  match s, hsl, hs with
                  | n' :: q :: r', _, hs =>
                    exact ⟨n', r', by rw [hc n' n q p r' r (by simpa using hs) (by simp)]⟩
            obtain ⟨p, hp⟩ := key
            refine ⟨(ss.map (fun s => (s.getD 0 0, s.drop 2))).map Prod.fst, ?_⟩
            have hmap : ss.map PyItem.arr = (ss.map (fun s => (s.getD 0 0, s.drop 2))).map (fun x => .arr (x.1 :: p :: x.2)) := by
              rw [List.map_map]
              refine List.map_congr_left (fun s hs => ?_)
              obtain ⟨n, r, rfl⟩ := hp s hs
              simp
            rw [hmap]
            refine .list _ p (fun x hx => ?_)
            obtain ⟨s, hs, rfl⟩ := List.mem_map.1 hx
            obtain ⟨n, r, rfl⟩ := hp s hs
            simp only [List.getD_cons_zero]
            rintro rfl
            exact h1 (p :: r) (by simpa using hs)
      · push Not at h2
        obtain ⟨s, hs, hlen⟩ := h2
        exact Or.inr ⟨_, .dim items h s hs hlen⟩

/-- C67, boundary: an empty list and samples without observations are accepted (the documented check is for one observation only). -/
theorem C67_accepts_empty (k p : Nat) :
    initScore (.list []) true = .ok [] ∧ initScore (.list (List.replicate k (.arr [0, p]))) true = .ok (List.replicate k 0) := by
  refine ⟨rfl, ?_⟩
  have := C67_valid (.list ((List.replicate k ((0, []) : Nat × List Nat)).map (fun x => .arr (x.1 :: p :: x.2)))) true _
    (.list (List.replicate k (0, [])) p (by intro x hx; rw [List.eq_of_mem_replicate hx]; simp))
  simpa using this

example : ValidData (.list [.arr [100, 3], .arr [50, 3]]) [100, 50] :=
  .list [(100, []), (50, [])] 3 (by simp)

example : ValidData (.pair [some 3, some 3] [100, 50]) [100, 50] := .pair _ _ rfl 3 (by simp)

example : BadData (.list [.arr [100, 3], .arr [1, 3]]) .valueError :=
  .single _ (by simp) (by simp) [3] (by simp)

example : BadData (.list [.arr [100, 3], .arr [7]]) .indexError := .dim _ (by simp) [7] (by simp) (by simp)

end Verif
