import Verif.Model.Selection
import Mathlib.Tactic.Linarith
import Mathlib.Tactic.FieldSimp
import Mathlib.Tactic.Ring
import Mathlib.Tactic.NormNum
/-!
# C58, C59: collision terms of fast decaying particles, and of kinds other than `Full`
-/
namespace PyBBN

/-! ## C58 -/

theorem fdIntegrate_length {S : Type*} (l : List (FDInt S)) (vs : List (List ℝ × List ℝ))
    (h : fdIntegrate l = .ok vs) : vs.length = l.length := by
  induction l generalizing vs with
  | nil => cases h; rfl
  | cons x l ih =>
    rw [fdIntegrate] at h
    cases hx : x.outcome with
    | error e => rw [hx] at h; cases h
    | ok v =>
      rw [hx] at h
      cases hl : fdIntegrate l with
      | error e => simp only [hl] at h; cases h
      | ok ws => simp only [hl] at h; cases h; simp [ih ws hl]

/-- **C58 (the stated claim fails).** With at least one registered integral the computation never
returns: either an integral raised, and that error comes through, or the result is
`AttributeError`. -/
theorem C58_always_raises {S R : Type*} (scaleOne : ℤ → List (Item S) → List ℝ → Except Err (List ℝ))
    (combine : List (List ℝ) → List (List ℝ) → R) (l : List (FDInt S)) (hl : l ≠ []) :
    (∀ r, icollFastDecay scaleOne combine l ≠ .ok r) ∧
    ((∀ x ∈ l, ∃ v, x.outcome = .ok v) →
      icollFastDecay scaleOne combine l = .error .attributeError) := by
  have key : ∀ vs, fdIntegrate l = .ok vs →
      icollFastDecay scaleOne combine l = .error .attributeError := by
    intro vs h
    have hlen := fdIntegrate_length l vs h
    unfold icollFastDecay
    rw [h]
    cases l with
    | nil => exact absurd rfl hl
    | cons x t =>
      cases vs with
      | nil => simp at hlen
      | cons v vs => rfl
  constructor
  · intro r
    cases h : fdIntegrate l with
    | error e => unfold icollFastDecay; rw [h]; simp
    | ok vs => rw [key vs h]; simp
  · intro h
    have : ∃ vs, fdIntegrate l = .ok vs := by
      clear hl key
      induction l with
      | nil => exact ⟨[], rfl⟩
      | cons x t ih =>
        obtain ⟨v, hv⟩ := h x (by simp)
        obtain ⟨vs, hvs⟩ := ih fun y hy => h y (by simp [hy])
        exact ⟨v :: vs, by rw [fdIntegrate, hv]; simp only [hvs]⟩
    obtain ⟨vs, h⟩ := this
    exact key vs h

/-- Without integrals the sums over nothing are returned. -/
theorem fd_no_integrals {S R : Type*} (scaleOne : ℤ → List (Item S) → List ℝ → Except Err (List ℝ))
    (combine : List (List ℝ) → List (List ℝ) → R) :
    icollFastDecay scaleOne combine [] = .ok (combine [] []) := rfl

/-- The failure is due to the argument only: on the integral itself the
constructor of `reaction_type` succeeds. -/
theorem fd_repaired {S : Type*} (x : FDInt S) :
    reactionTypeInit (.integral x.reaction) = .ok (sumSides x.reaction) ∧
    reactionTypeInit (.tuple x.reaction) = .error .attributeError := ⟨rfl, rfl⟩

example : icollFastDecay (S := ℕ) (fun _ _ f => .ok f) (fun _ b => b)
    [⟨[⟨-1, 0, false, 0, false⟩, ⟨1, 1, false, 1, false⟩, ⟨1, 2, false, 2, false⟩], .ok ([1], [2])⟩] =
    .error .attributeError := by
  apply (C58_always_raises _ _ _ (by simp)).2
  simp

/-! ## C59 -/

/-- **C59 (the stated claim fails).** For a reaction that is not a creation from a fast decaying
particle — where `scaling` changes nothing — the four-particle integral of a kind other than `Full`
raises on every grid of two or more momenta. -/
theorem C59_four_raises (kind : CKind) (fast : Bool) (br : Option ℝ) (num : ℝ) (total : List ℝ → ℝ)
    (const dist full : List ℝ) (h : 1 < full.length) :
    integrateTail4 kind fast false br num total const dist full = .error .valueError := by
  unfold integrateTail4 scaling
  match full, h with
  | a :: b :: l, _ => simp [Scaled.truth]

/-- **C59.** For a creation from a fast decaying particle it raises as well, unless nothing was
created, in which case it returns zeros. -/
theorem C59_four_creation (kind : CKind) (fast : Bool) (b num : ℝ) (total : List ℝ → ℝ)
    (const dist full : List ℝ) (h : 1 < full.length) :
    integrateTail4 kind fast true (some b) num total const dist full =
      open Classical in if total full = 0 then .ok (returnFunction kind fast full.length)
        else .error .valueError := by
  unfold integrateTail4 scaling
  by_cases h0 : total full = 0
  · simp [h0, Scaled.truth]
  · simp only [if_true, h0, if_false]
    match full, h with
    | a :: c :: l, _ => simp [Scaled.truth]

/-- The value a reader expects of the computation: the stack, rescaled if it is a creation from a fast
decaying particle, goes into the final step. -/
noncomputable def expected (creationFast : Bool) (b num : ℝ) (total : List ℝ → ℝ) (full : List ℝ) :
    List ℝ :=
  if creationFast then full.map fun x => b * num * x / total full else full

/-- **C59 (three particles).** The same construct inside `try … except` works: on two or more momenta the
result is the final step applied to the (rescaled) stack, and zeros if nothing was created. -/
theorem C59_three_works (kind : CKind) (fast cf : Bool) (b num : ℝ) (total : List ℝ → ℝ)
    (const dist full : List ℝ) (h : 1 < full.length) :
    integrateTail3 kind fast cf (some b) num total const dist full =
      open Classical in if cf = true ∧ total full = 0 then .ok (returnFunction kind fast full.length)
        else .ok (integrateEnd kind fast const dist (expected cf b num total full)) := by
  unfold integrateTail3 scaling expected
  cases cf with
  | false =>
    match full, h with
    | a :: c :: l, _ => simp [Scaled.truth]
  | true =>
    by_cases h0 : total full = 0
    · simp [h0, Scaled.truth]
    · have e : full.map (fun x => x * (b * num / total full)) =
          full.map fun x => b * num * x / total full :=
        List.map_congr_left fun x _ => by field_simp
      simp only [if_true, h0, if_false, and_false, e]
      match full, h with
      | a :: c :: l, _ => simp [Scaled.truth]

/-- **C59 (kinds).** What the three-particle integral returns for each kind of a particle without
`fast_decay`: loss kinds carry the factor `f`, the others do not; entry by entry. -/
theorem C59_three_values (kind : CKind) (cf : Bool) (b num : ℝ) (total : List ℝ → ℝ)
    (const dist full : List ℝ) (h : 1 < full.length) (hc : const.length = full.length)
    (hd : dist.length = full.length) (h0 : cf = true → total full ≠ 0) :
    ∃ out : List ℝ, integrateTail3 kind false cf (some b) num total const dist full = .ok (.one out) ∧
      out.length = full.length ∧
      ∀ (i : ℕ) (x c f : ℝ), full[i]? = some x → const[i]? = some c → dist[i]? = some f →
        out[i]? = some ((if cf then b * num / total full else 1) * x * c *
          (if kind = .ff ∨ kind = .fDecay ∨ kind = .ffVac then f else 1)) := by
  rw [C59_three_works _ _ _ _ _ _ _ _ _ h, if_neg (by rintro ⟨a, c⟩; exact h0 a c)]
  have hlen : (expected cf b num total full).length = full.length := by
    unfold expected; split_ifs <;> simp
  have hget : ∀ (i : ℕ) (x : ℝ), full[i]? = some x → (expected cf b num total full)[i]? =
      some ((if cf then b * num / total full else 1) * x) := by
    intro i x hx
    unfold expected
    cases cf with
    | false => simpa using hx
    | true =>
      simp only [if_true, List.getElem?_map, hx, Option.map_some, Option.some.injEq]
      ring
  unfold integrateEnd
  simp only [Bool.false_eq_true, false_and, if_false]
  by_cases hk : kind = .ff ∨ kind = .fDecay ∨ kind = .ffVac
  · rw [if_pos hk]
    refine ⟨_, rfl, by simp [mulArr, hlen, hc, hd], ?_⟩
    intro i x c f hx hcx hf
    rw [if_pos hk]
    simp [mulArr, List.getElem?_zipWith, hget i x hx, hcx, hf]
    ring
  · rw [if_neg hk]
    refine ⟨_, rfl, by simp [mulArr, hlen, hc], ?_⟩
    intro i x c f hx hcx hf
    rw [if_neg hk]
    simp [mulArr, List.getElem?_zipWith, hget i x hx, hcx]

/-- **C59 (kinds, fast decaying species).** For a particle with `fast_decay` the creation kinds return the
pair (gain, 0) and the decay kinds the pair (0, loss rate), entry by entry; the loss rate is not multiplied
by the occupation. -/
theorem C59_fast_values (kind : CKind) (cf : Bool) (b num : ℝ) (total : List ℝ → ℝ)
    (const dist full : List ℝ) (h : 1 < full.length) (hc : const.length = full.length)
    (h0 : cf = true → total full ≠ 0)
    (hk : kind = .fCreation ∨ kind = .f1Vac ∨ kind = .fDecay ∨ kind = .ffVac) :
    ∃ F1 Ff : List ℝ, integrateTail3 kind true cf (some b) num total const dist full = .ok (.two F1 Ff) ∧
      F1.length = full.length ∧ Ff.length = full.length ∧
      ∀ (i : ℕ) (x c : ℝ), full[i]? = some x → const[i]? = some c →
        let v := (if cf then b * num / total full else 1) * x * c
        F1[i]? = some (if kind = .fCreation ∨ kind = .f1Vac then v else 0) ∧
        Ff[i]? = some (if kind = .fDecay ∨ kind = .ffVac then v else 0) := by
  rw [C59_three_works _ _ _ _ _ _ _ _ _ h, if_neg (by rintro ⟨a, c⟩; exact h0 a c)]
  have hlen : (expected cf b num total full).length = full.length := by
    unfold expected; split_ifs <;> simp
  have hget : ∀ (i : ℕ) (x : ℝ), full[i]? = some x → (expected cf b num total full)[i]? =
      some ((if cf then b * num / total full else 1) * x) := by
    intro i x hx
    unfold expected
    cases cf with
    | false => simpa using hx
    | true =>
      simp only [if_true, List.getElem?_map, hx, Option.map_some, Option.some.injEq]
      ring
  have hz : ∀ (i : ℕ) (x : ℝ), full[i]? = some x →
      (List.replicate full.length (0 : ℝ))[i]? = some 0 := by
    intro i x hx
    rw [List.getElem?_replicate, if_pos (List.getElem?_eq_some_iff.mp hx).1]
  have hm : ∀ (i : ℕ) (x c : ℝ), full[i]? = some x → const[i]? = some c →
      (mulArr (expected cf b num total full) const)[i]? =
        some ((if cf then b * num / total full else 1) * x * c) := by
    intro i x c hx hcx
    simp [mulArr, List.getElem?_zipWith, hget i x hx, hcx]
  unfold integrateEnd
  rw [hlen]
  rcases hk with rfl | rfl | rfl | rfl <;> simp only [true_and, reduceCtorEq, or_self, or_true, true_or,
    if_true, if_false, or_false, false_or]
  all_goals
    refine ⟨_, _, rfl, ?_, ?_, fun i x c hx hcx => ⟨?_, ?_⟩⟩
    all_goals first
      | exact hz i x hx
      | exact hm i x c hx hcx
      | simp [mulArr, hlen, hc]

/-- **C59 (shape, fast decaying species).** The four remaining kinds return a single array, although
`Icoll_fast_decay` unpacks a pair; a neglected integral of the same kind does return a pair. -/
theorem C59_fast_shape (kind : CKind) (cf : Bool) (b num : ℝ) (total : List ℝ → ℝ)
    (const dist full : List ℝ) (h : 1 < full.length) (h0 : cf = true → total full ≠ 0)
    (hk : kind = .full ∨ kind = .fullVac ∨ kind = .f1 ∨ kind = .ff) :
    (∃ G, integrateTail3 kind true cf (some b) num total const dist full = .ok (.one G)) ∧
    returnFunction kind true full.length =
      .two (List.replicate full.length 0) (List.replicate full.length 0) := by
  rw [C59_three_works _ _ _ _ _ _ _ _ _ h, if_neg (by rintro ⟨a, c⟩; exact h0 a c)]
  constructor
  · unfold integrateEnd
    rcases hk with rfl | rfl | rfl | rfl <;> simp
  · simp [returnFunction]

example : ∃ F1 Ff : List ℝ, integrateTail3 .fDecay true false (some 1) 0 List.sum [2, 2] [0.5, 0.5] [3, 4] =
    .ok (.two F1 Ff) ∧ F1[1]? = some 0 ∧ Ff[1]? = some (1 * 4 * 2) := by
  obtain ⟨F1, Ff, h, -, -, hv⟩ := C59_fast_values .fDecay false 1 0 List.sum [2, 2] [0.5, 0.5] [3, 4]
    (by simp) (by simp) (by simp) (by simp)
  have := hv 1 4 2 (by simp) (by simp)
  exact ⟨F1, Ff, h, by simpa using this.1, by simpa using this.2⟩

/-- **C59 (normalisation).** The rescaling of a creation makes the total production equal to the
branching ratio times the number of particles that decayed, for every quadrature that is homogeneous
(`simps` is linear). -/
theorem C59_scaling_total (b num : ℝ) (total : List ℝ → ℝ) (full : List ℝ)
    (hom : ∀ (k : ℝ) (l : List ℝ), total (l.map (· * k)) = k * total l) (h0 : total full ≠ 0) :
    ∃ l, scaling true (some b) num total full = .ok (.arr l) ∧ total l = b * num := by
  refine ⟨full.map (· * (b * num / total full)), ?_, ?_⟩
  · simp [scaling, h0]
  · rw [hom]; field_simp

/-- If no branching ratio is listed for the products the scaling raises. -/
theorem scaling_no_branching (num : ℝ) (total : List ℝ → ℝ) (full : List ℝ) :
    scaling true none num total full = .error .generic := rfl

example : integrateTail4 .fDecay false false none 0 List.sum [1, 1] [1, 1] [2, 3] =
    .error .valueError := C59_four_raises _ _ _ _ _ _ _ _ (by simp)

example : ∃ l, scaling true (some 0.5) 4 List.sum [1, 3] = .ok (.arr l) ∧ l.sum = 0.5 * 4 := by
  apply C59_scaling_total
  · intro k l
    induction l with
    | nil => simp
    | cons a l ih => simp only [List.map_cons, List.sum_cons, ih]; ring
  · norm_num

end PyBBN
