import Verif.Proof.Cache

/-!
# C41, C42, C43: the cache of scores

`M` is the type of stored models and `copy` the method `Model.copy`; in C41-C43 it is an arbitrary total function `cp`, its
behaviour on fitted models being the subject of C45 and C52.
-/

namespace Verif

open Spec

variable {p : Nat} {M : Type}

/-! ## Specification -/

namespace Spec

/-- A checked write of a history: the key, the model and the score. -/
structure Write (p : Nat) (M : Type) where
  A : Adj p
  I : Finset (Fin p)
  model : M
  score : Flt

/-- The value the cache should hold for `(A, I)` after a history of writes: that of the first write for this key. -/
def firstWrite (ops : List (Write p M)) (A : Adj p) (I : Finset (Fin p)) : Option (M × Flt) :=
  (ops.find? (fun w => decide (w.A = A ∧ w.I = I))).map (fun w => (w.model, w.score))

/-- A call of a history: the key, and what the fit returns if it is carried out at that moment. -/
structure Call (p : Nat) (M : Type) where
  A : Adj p
  I : Finset (Fin p)
  fit : Except Err (M × Flt)

/-- Whether the fit returns. -/
def Call.fitOk (c : Call p M) : Bool := match c.fit with | .ok _ => true | .error _ => false

/-- What a call should return after the calls `before`: the outcome of the first one for the same pair whose fit returned, or
that of its own fit if there is none. -/
def answer (cp : M → M) (before : List (Call p M)) (c : Call p M) : Except Err (M × Flt) :=
  match before.find? (fun b => decide (b.A = c.A ∧ b.I = c.I) && b.fitOk) with
  | some b => b.fit.map (fun r => (cp r.1, r.2))
  | none => c.fit

end Spec

/-! ## Histories -/

/-- The cache after a history of checked writes; a write that raises leaves the cache as it is (`_find` runs before the lists are
changed, `/repo/utlvce/score.py:477-483`). -/
def runWrites (cp : M → M) (c : List (Entry p M)) : List (Spec.Write p M) → List (Entry p M)
  | [] => c
  | w :: ws =>
    match cacheWrite (fun m => .ok (cp m)) c w.A w.I w.model w.score true with
    | .error _ => runWrites cp c ws
    | .ok c' => runWrites cp c' ws

/-- The outcomes of a history of calls of `score_dag` without `init_model` on one `Score` object with caching. -/
def runCalls (cp : M → M) (c : List (Entry p M)) : List (Spec.Call p M) → List (Except Err (M × Flt))
  | [] => []
  | k :: ks =>
    match scoreDag (fun m => .ok (cp m)) (fun _ _ _ => k.fit) (some c) k.A k.I none with
    | .error err => .error err :: runCalls cp c ks
    | .ok (r, none) => .ok r :: runCalls cp c ks
    | .ok (r, some c') => .ok r :: runCalls cp c' ks

/-! ## C41 -/

theorem runWrites_lookup (cp : M → M) (ws : List (Write p M)) (c : List (Entry p M)) (hc : UniqueKeys c) :
    UniqueKeys (runWrites cp c ws) ∧
    ∀ A I, (runWrites cp c ws).find? (fun en => decide (IsKey A I en)) =
      ((c.find? (fun en => decide (IsKey A I en))).or
        ((ws.find? (fun w => decide (w.A = A ∧ w.I = I))).map (fun w => ⟨w.A, w.I, w.score, cp w.model⟩))) := by
  induction ws generalizing c with
  | nil => exact ⟨hc, fun A I => by simp [runWrites]⟩
  | cons w ws ih =>
    obtain ⟨h1, h2⟩ := cacheWrite_spec (fun m => .ok (cp m)) c hc w.A w.I w.model w.score
    by_cases hex : ∃ en ∈ c, IsKey w.A w.I en
    · simp only [runWrites, h1 hex]
      refine ⟨(ih c hc).1, fun A I => ?_⟩
      rw [(ih c hc).2 A I]
      by_cases hk : w.A = A ∧ w.I = I
      · obtain ⟨rfl, rfl⟩ := hk
        obtain ⟨en, hen, hk⟩ := hex
        cases hf : c.find? (fun en => decide (IsKey w.A w.I en)) with
        | none => exact absurd hk (by simpa using List.find?_eq_none.1 hf en hen)
        | some x => simp
      · rw [List.find?_cons, decide_eq_false hk]
    · push Not at hex
      simp only [runWrites, h2 hex]
      have hu := uniqueKeys_append c hc ⟨w.A, w.I, w.score, cp w.model⟩ hex
      refine ⟨(ih _ hu).1, fun A I => ?_⟩
      rw [(ih _ hu).2 A I, List.find?_append]
      by_cases hk : w.A = A ∧ w.I = I
      · obtain ⟨rfl, rfl⟩ := hk
        simp [IsKey]
      · have hk' : ¬ IsKey A I (⟨w.A, w.I, w.score, cp w.model⟩ : Entry p M) := hk
        rw [List.find?_cons (as := ws), decide_eq_false hk]
        simp [hk']

/-- C41, uniqueness: after any history of checked writes on an empty cache, at most one entry is stored for every pair. -/
theorem C41_unique_entries (cp : M → M) (ws : List (Write p M)) : UniqueKeys (runWrites cp [] ws) :=
  (runWrites_lookup cp ws [] uniqueKeys_nil).1

/-- C41, reads: after any history of checked writes, reading never raises (in particular not the internal uniqueness exception)
and returns the copy made by the first write for the pair, or `None` if there was no write for it. -/
theorem C41_read_is_map (cp : M → M) (ws : List (Write p M)) (A : Adj p) (I : Finset (Fin p)) :
    cacheRead (runWrites cp [] ws) A I = .ok ((firstWrite ws A I).map (fun r => (cp r.1, r.2))) := by
  obtain ⟨h1, h2⟩ := runWrites_lookup cp ws [] uniqueKeys_nil
  rw [cacheRead_spec _ h1, h2 A I, firstWrite]
  cases ws.find? (fun w => decide (w.A = A ∧ w.I = I)) <;> simp

/-- C41, writes: after any history of checked writes, a checked write raises `ValueError` exactly for the pairs already written;
otherwise it succeeds. -/
theorem C41_write_iff_new (cp : M → M) (ws : List (Write p M)) (A : Adj p) (I : Finset (Fin p)) (m : M) (score : Flt) :
    ((firstWrite ws A I).isSome → cacheWrite (fun m => .ok (cp m)) (runWrites cp [] ws) A I m score true = .error .valueError) ∧
    (firstWrite ws A I = none → ∃ c, cacheWrite (fun m => .ok (cp m)) (runWrites cp [] ws) A I m score true = .ok c) := by
  obtain ⟨h1, h2⟩ := runWrites_lookup cp ws [] uniqueKeys_nil
  obtain ⟨h3, h4⟩ := cacheWrite_spec (fun m => .ok (cp m)) _ h1 A I m score
  have h2 := h2 A I
  rw [List.find?_nil, Option.none_or] at h2
  unfold firstWrite
  constructor
  · intro h
    apply h3
    cases hf : ws.find? (fun w => decide (w.A = A ∧ w.I = I)) with
    | none => rw [hf] at h; simp at h
    | some w =>
      rw [hf] at h2
      exact ⟨_, List.mem_of_find?_eq_some h2, by simpa using List.find?_some h2⟩
  · intro h
    rw [Option.map_eq_none_iff] at h
    rw [h] at h2
    refine ⟨_, h4 ?_⟩
    intro en hen
    simpa using List.find?_eq_none.1 h2 en hen

/-- C41, the check matters: with `check=False` a second write for a pair is accepted and reading the pair raises the internal
exception from then on. -/
theorem C41_unchecked_boundary (cp : M → M) (A : Adj p) (I : Finset (Fin p)) (m m' : M) (s s' : Flt) :
    ∃ c, cacheWrite (fun m => .ok (cp m)) [⟨A, I, s, cp m⟩] A I m' s' false = .ok c ∧ cacheRead c A I = .error .exception := by
  refine ⟨_, rfl, ?_⟩
  have h : List.range 2 = [0, 1] := rfl
  simp [cacheRead, cacheFind, h]

section Example

/-- Two DAGs and two target sets: the third write is refused, and the four keys are answered correctly. -/
private def exA : Adj 2 := ![![0, 1], ![0, 0]]
private def exB : Adj 2 := ![![0, 0], ![1, 0]]
private def exWrites : List (Write 2 Nat) :=
  [⟨exA, {0}, 10, some 1⟩, ⟨exA, {1}, 20, none⟩, ⟨exA, {0}, 30, some 3⟩, ⟨exB, {0}, 40, some 4⟩]

example : cacheRead (runWrites id [] exWrites) exA {0} = .ok (some (10, some 1)) := by
  rw [C41_read_is_map, show firstWrite exWrites exA {0} = some (10, some 1) by
    simp [firstWrite, exWrites]]
  rfl
example : firstWrite exWrites exA {1} = some (20, none) := by
  have h : ({0} : Finset (Fin 2)) ≠ {1} := by decide
  simp [firstWrite, exWrites, h]
example : firstWrite exWrites exB {1} = none := by
  have h : ({0} : Finset (Fin 2)) ≠ {1} := by decide
  have h' : exA ≠ exB := fun h => absurd (congrFun (congrFun h 0) 1) (by decide)
  simp [firstWrite, exWrites, h, h']

end Example

/-! ## C42 -/

theorem runCalls_eq (cp : M → M) (ks : List (Call p M)) (c : List (Entry p M)) (hc : UniqueKeys c) (before : List (Call p M))
    (hb : ∀ A I, (c.find? (fun en => decide (IsKey A I en))).map (fun en => (en.model, en.score)) =
      (before.find? (fun b => decide (b.A = A ∧ b.I = I) && b.fitOk)).bind
        (fun b => (b.fit.map (fun r => (cp r.1, r.2))).toOption)) :
    ∀ i : Nat, ∀ k, ks[i]? = some k → (runCalls cp c ks)[i]? = some (answer cp (before ++ ks.take i) k) := by
  induction ks generalizing c before with
  | nil => intro i k h; simp at h
  | cons k ks ih =>
    have hread := cacheRead_spec c hc k.A k.I
    rw [hb k.A k.I] at hread
    have hstep : ∀ c' : List (Entry p M), UniqueKeys c' →
        (∀ A I, (c'.find? (fun en => decide (IsKey A I en))).map (fun en => (en.model, en.score)) =
          ((before ++ [k]).find? (fun b => decide (b.A = A ∧ b.I = I) && b.fitOk)).bind
            (fun b => (b.fit.map (fun r => (cp r.1, r.2))).toOption)) →
        ∀ rest, rest = runCalls cp c' ks → ∀ i : Nat, ∀ k', (k :: ks)[i]? = some k' →
          ((answer cp before k) :: rest)[i]? = some (answer cp (before ++ (k :: ks).take i) k') := by
      intro c' hc' hb' rest hrest i k' hk'
      cases i with
      | zero =>
        simp only [List.getElem?_cons_zero, Option.some.injEq] at hk'
        subst hk'
        simp
      | succ i =>
        rw [List.getElem?_cons_succ] at hk'
        rw [List.getElem?_cons_succ, hrest, ih c' hc' (before ++ [k]) hb' i k' hk']
        simp [List.append_assoc]
    unfold runCalls scoreDag
    simp only [hread]
    cases hf : before.find? (fun b => decide (b.A = k.A ∧ b.I = k.I) && b.fitOk) with
    | some b =>
      have hok := List.find?_some hf
      cases hbf : b.fit with
      | error err => simp [Call.fitOk, hbf] at hok
      | ok r =>
        simp only [Option.bind_some, hbf, Except.map, Except.toOption]
        have hans : answer cp before k = .ok (cp r.1, r.2) := by
          simp only [answer, hf, hbf, Except.map]
        rw [← hans]
        refine hstep c hc ?_ _ rfl
        intro A I
        rw [hb A I, List.find?_append]
        by_cases hk : k.A = A ∧ k.I = I
        · obtain ⟨rfl, rfl⟩ := hk
          rw [hf]; rfl
        · simp [hk]
    | none =>
      simp only [Option.bind_none]
      have hans : answer cp before k = k.fit := by simp only [answer, hf]
      cases hkf : k.fit with
      | error err =>
        simp only []
        rw [← hkf, ← hans]
        refine hstep c hc ?_ _ rfl
        intro A I
        rw [hb A I, List.find?_append]
        have : k.fitOk = false := by simp [Call.fitOk, hkf]
        simp [this]
      | ok r =>
        have hnone : ∀ en ∈ c, ¬ IsKey k.A k.I en := by
          have := hb k.A k.I
          rw [hf, Option.bind_none, Option.map_eq_none_iff, List.find?_eq_none] at this
          intro en hen
          simpa using this en hen
        have hw := (cacheWrite_spec (fun m => .ok (cp m)) c hc k.A k.I r.1 r.2).2 hnone
        simp only [hw]
        rw [show ((.ok (r.1, r.2) : Except Err (M × Flt))) = answer cp before k by rw [hans, hkf]]
        refine hstep _ (uniqueKeys_append c hc ⟨k.A, k.I, r.2, cp r.1⟩ hnone) ?_ _ rfl
        intro A I
        rw [List.find?_append, List.find?_append]
        have hfo : k.fitOk = true := by simp [Call.fitOk, hkf]
        by_cases hk : k.A = A ∧ k.I = I
        · obtain ⟨rfl, rfl⟩ := hk
          have hcn : c.find? (fun en => decide (IsKey k.A k.I en)) = none := by
            rw [List.find?_eq_none]; intro en hen; simpa using hnone en hen
          rw [hf, hcn]
          simp [IsKey, hfo, hkf, Except.map, Except.toOption]
        · have hk' : ¬ IsKey A I (⟨k.A, k.I, r.2, cp r.1⟩ : Entry p M) := hk
          have := hb A I
          simpa [hk, hk'] using this

/-- C42: in any history of calls of `score_dag` without `init_model` on one object with caching, every call returns what the first
call for the same pair `(A, I)` whose fit returned has computed (its model through `copy`), and the outcome of its own fit if
there is no such call; fits that raise are not stored. -/
theorem C42_calls (cp : M → M) (ks : List (Call p M)) (i : Nat) (k : Call p M) (hk : ks[i]? = some k) :
    (runCalls cp [] ks)[i]? = some (answer cp (ks.take i) k) := by
  have := runCalls_eq cp ks [] uniqueKeys_nil [] (by simp) i k hk
  simpa using this

/-- C42, transparency: if the fit is a function of the pair, every call returns what an object without cache returns, up to one
copy of the model; the scores are identical. -/
theorem C42_transparent (cp : M → M) (fit : Adj p → Finset (Fin p) → Except Err (M × Flt)) (keys : List (Adj p × Finset (Fin p)))
    (i : Nat) (A : Adj p) (I : Finset (Fin p)) (hk : keys[i]? = some (A, I)) :
    ∃ r, (runCalls cp [] (keys.map (fun k => ⟨k.1, k.2, fit k.1 k.2⟩)))[i]? = some r ∧
      (scoreDag (fun m => .ok (cp m)) (fun A I _ => fit A I) none A I none).map Prod.fst = fit A I ∧
      (r = fit A I ∨ r = (fit A I).map (fun x => (cp x.1, x.2))) := by
  refine ⟨_, C42_calls cp _ i ⟨A, I, fit A I⟩ (by simp [hk]), ?_, ?_⟩
  · simp only [scoreDag]
    cases fit A I <;> rfl
  · unfold answer
    split
    · rename_i b hb
      right
      have h1 := List.mem_of_find?_eq_some hb
      have h2 := List.find?_some hb
      rw [← List.map_take, List.mem_map] at h1
      obtain ⟨k, -, rfl⟩ := h1
      simp only [Bool.and_eq_true, decide_eq_true_eq] at h2
      rw [h2.1.1, h2.1.2]
    · exact Or.inl rfl

/-- Without a cache every call is the fit. -/
theorem C42_no_cache (cp : M → M) (fit : Adj p → Finset (Fin p) → Option M → Except Err (M × Flt)) (A : Adj p)
    (I : Finset (Fin p)) (init : Option M) :
    scoreDag (fun m => .ok (cp m)) fit none A I init = (fit A I init).map (fun r => (r, none)) := by
  cases init <;> simp only [scoreDag] <;> cases fit A I _ <;> rfl

section Example

/-- Three calls for the same pair with different outcomes of the (random) fit: the first one fails, the second one is stored and
the third one returns the second. -/
private def exCalls : List (Call 2 Nat) :=
  [⟨exA, {0}, .error .linAlgError⟩, ⟨exA, {0}, .ok (7, some 1)⟩, ⟨exA, {0}, .ok (9, some 2)⟩]

example : (runCalls (· + 100) [] exCalls)[2]? = some (.ok (107, some 1)) := by
  rw [C42_calls _ _ 2 ⟨exA, {0}, .ok (9, some 2)⟩ rfl]
  simp [answer, exCalls, Call.fitOk, Except.map]
example : (runCalls (· + 100) [] exCalls)[1]? = some (.ok (7, some 1)) := by
  rw [C42_calls _ _ 1 ⟨exA, {0}, .ok (7, some 1)⟩ rfl]
  simp [answer, exCalls, Call.fitOk]

end Example

/-! ## C43 -/

/-- C43: a call with `init_model` never reads the cache; on a pair that is already stored it carries out the fit and then raises
`ValueError`, or the error of the fit. -/
theorem C43_init_on_stored_pair (cp : M → M) (fit : Adj p → Finset (Fin p) → Option M → Except Err (M × Flt))
    (ws : List (Write p M)) (A : Adj p) (I : Finset (Fin p)) (m : M) (h : (firstWrite ws A I).isSome) :
    scoreDag (fun m => .ok (cp m)) fit (some (runWrites cp [] ws)) A I (some m) =
      .error (match fit A I (some m) with | .error err => err | .ok _ => .valueError) := by
  simp only [scoreDag]
  cases hf : fit A I (some m) with
  | error err => rfl
  | ok r =>
    simp only []
    rw [(C41_write_iff_new cp ws A I r.1 r.2).1 h]

/-- C43: on a pair that is not stored a call with `init_model` stores its result, and every later call without `init_model` for the
pair returns that result, whatever the plain fit would give. -/
theorem C43_init_poisons (cp : M → M) (fit fit' : Adj p → Finset (Fin p) → Option M → Except Err (M × Flt))
    (ws ws' : List (Write p M)) (A : Adj p) (I : Finset (Fin p)) (m m' : M) (s : Flt) (h : firstWrite ws A I = none)
    (hf : fit A I (some m) = .ok (m', s)) :
    ∃ c, scoreDag (fun m => .ok (cp m)) fit (some (runWrites cp [] ws)) A I (some m) = .ok ((m', s), some c) ∧
      scoreDag (fun m => .ok (cp m)) fit' (some (runWrites cp c ws')) A I none =
        .ok ((cp m', s), some (runWrites cp c ws')) := by
  obtain ⟨h1, h2⟩ := runWrites_lookup cp ws [] uniqueKeys_nil
  have hn : ∀ en ∈ runWrites cp [] ws, ¬ IsKey A I en := by
    have h2 := h2 A I
    rw [firstWrite, Option.map_eq_none_iff] at h
    rw [List.find?_nil, Option.none_or, h, Option.map_none, List.find?_eq_none] at h2
    intro en hen
    simpa using h2 en hen
  have hw := (cacheWrite_spec (fun m => .ok (cp m)) _ h1 A I m' s).2 hn
  refine ⟨runWrites cp [] ws ++ [⟨A, I, s, cp m'⟩], by simp only [scoreDag, hf, hw], ?_⟩
  have hu := uniqueKeys_append _ h1 ⟨A, I, s, cp m'⟩ hn
  obtain ⟨h3, h4⟩ := runWrites_lookup cp ws' _ hu
  simp only [scoreDag]
  rw [cacheRead_spec _ h3, h4 A I, List.find?_append]
  have : (runWrites cp [] ws).find? (fun en => decide (IsKey A I en)) = none := by
    rw [List.find?_eq_none]; intro en hen; simpa using hn en hen
  rw [this]
  simp [IsKey]

/-- C43, transparency is lost: the same plain call returns different scores with and without an earlier call with `init_model`. -/
theorem C43_not_transparent : ∃ (fit : Adj 2 → Finset (Fin 2) → Option Nat → Except Err (Nat × Flt)) (A : Adj 2)
    (I : Finset (Fin 2)) (c : List (Entry 2 Nat)) (r r' : Nat × Flt) (c' : Option (List (Entry 2 Nat))),
    scoreDag (fun m => .ok m) fit (some []) A I (some 5) = .ok (r', some c) ∧
    (scoreDag (fun m => .ok m) fit (some c) A I none) = .ok (r', some c) ∧
    (scoreDag (fun m => .ok m) fit (some []) A I none) = .ok (r, c') ∧ r.2 ≠ r'.2 := by
  refine ⟨fun _ _ m => match m with | none => .ok (0, some 0) | some x => .ok (x, some 1), exA, {0},
    [⟨exA, {0}, some 1, 5⟩], (0, some 0), (5, some 1), some [⟨exA, {0}, some 0, 0⟩], ?_, ?_, ?_, ?_⟩
  · simp [scoreDag, cacheWrite, cacheFind]
  · have h : List.range 1 = [0] := rfl
    simp [scoreDag, cacheRead, cacheFind, h]
  · simp [scoreDag, cacheWrite, cacheRead, cacheFind]
  · simp

example : ∃ c, scoreDag (fun m => .ok (id m)) (fun _ _ _ => .ok (1, some 2))
    (some (runWrites id [] exWrites)) exB {1} (some 5) = .ok ((1, some 2), some c) := by
  have h : ({0} : Finset (Fin 2)) ≠ {1} := by decide
  have h' : exA ≠ exB := fun h => absurd (congrFun (congrFun h 0) 1) (by decide)
  obtain ⟨c, h1, -⟩ := C43_init_poisons (M := Nat) id (fun _ _ _ => .ok (1, some 2)) (fun _ _ _ => .error .valueError) exWrites []
    exB {1} 5 1 (some 2) (by simp [firstWrite, exWrites, h, h']) rfl
  exact ⟨c, h1⟩

end Verif
