import Verif.Model.Params
import Mathlib.Tactic.FieldSimp
import Mathlib.Tactic.Ring
import Mathlib.Tactic.Linarith
import Mathlib.Tactic.Positivity
/-!
# C22: consistency of scale factor, temperature and x
-/
namespace PyBBN

/-- The relations a user relies on, division free: `a m = x` and `T a = aT`. -/
def Params.Consistent (p : Params) : Prop := p.a * p.m = p.x ∧ p.T * p.a = p.aT

/-- What the rest of the program may do to a `Params` object. -/
inductive ParamsOp
  | setX (v : ℝ)
  | setAT (v : ℝ)
  | initTime (rho : ℝ)
  | update (rho S : ℝ)

/-- Effect of one operation. -/
noncomputable def Params.apply (c : Consts) (p : Params) : ParamsOp → Params
  | .setX v => { p with x := v }
  | .setAT v => { p with aT := v }
  | .initTime r => p.initTime c r
  | .update r S => p.update c r S

/-- The normalisation never changes. -/
theorem Params.apply_m (c : Consts) (ops : List ParamsOp) (p : Params) :
    (ops.foldl (Params.apply c) p).m = p.m := by
  induction ops generalizing p with
  | nil => rfl
  | cons o os ih =>
    rw [List.foldl_cons, ih]
    cases o <;> rfl

/-- **C22.** Creation: `a T = m` (so the conformal temperature starts at the normalisation), `x = a m`,
the step in the mode's variable is the requested one and the step of `x` is `x dy` resp. `dx`. -/
theorem C22_creation (c : Consts) (log : Bool) (kw : ParamsKw) (p : Params)
    (h : Params.new c log kw = .ok p) :
    p.Consistent ∧ p.aT = p.m ∧ kw.T = some p.T ∧ p.m = kw.m.getD c.MeV ∧ p.t = kw.t.getD 0 ∧
    p.rho = kw.rho ∧
    (log = true → ∃ dy, kw.dy = some dy ∧ dy ≠ 0 ∧ p.h = dy ∧ p.dy = dy ∧ p.dx = p.x * dy) ∧
    (log = false → ∃ dx, kw.dx = some dx ∧ dx ≠ 0 ∧ p.h = dx ∧ p.dx = dx) := by
  unfold Params.new at h
  split at h
  · simp at h
  · rename_i T hT
    split at h
    · simp at h
    · rename_i hT0
      simp only at h
      split at h
      · simp at h
      · rename_i h1
        split at h
        · simp at h
        · rename_i h2
          injection h with h
          subst h
          refine ⟨⟨rfl, ?_⟩, ?_, hT, by simp, rfl, rfl, ?_, ?_⟩
          · simp; ring
          · simp; field_simp
          · intro hl
            subst hl
            cases hd : kw.dy with
            | none => exact absurd ⟨rfl, Or.inl hd⟩ h1
            | some d =>
              refine ⟨d, rfl, ?_, by simp, by simp, by simp⟩
              rintro rfl
              exact absurd ⟨rfl, Or.inr hd⟩ h1
          · intro hl
            subst hl
            cases hd : kw.dx with
            | none => exact absurd ⟨rfl, Or.inl hd⟩ h2
            | some d =>
              refine ⟨d, rfl, ?_, by simp, by simp⟩
              rintro rfl
              exact absurd ⟨rfl, Or.inr hd⟩ h2

/-- **C22.** A `Params` object is created exactly when a non-zero temperature and a non-zero step size
of the active mode are given. -/
theorem C22_creation_iff (c : Consts) (log : Bool) (kw : ParamsKw) :
    (∃ p, Params.new c log kw = .ok p) ↔
      (∃ T, kw.T = some T ∧ T ≠ 0) ∧
      ∃ d, (if log then kw.dy else kw.dx) = some d ∧ d ≠ 0 := by
  constructor
  · rintro ⟨p, h⟩
    obtain ⟨_, _, hT, _, _, _, hl, hl'⟩ := C22_creation c log kw p h
    refine ⟨⟨p.T, hT, ?_⟩, ?_⟩
    · intro h0
      unfold Params.new at h
      rw [hT] at h
      simp [h0] at h
    · cases log
      · obtain ⟨d, a, b, _⟩ := hl' rfl
        exact ⟨d, by simpa using a, b⟩
      · obtain ⟨d, a, b, _⟩ := hl rfl
        exact ⟨d, by simpa using a, b⟩
  · rintro ⟨⟨T, hT, hT0⟩, d, hd, hd0⟩
    unfold Params.new
    rw [hT]
    cases log <;> simp only [Bool.false_eq_true, if_true, if_false] at hd <;>
      simp [hT0, falsy, hd, hd0]

/-- **C22.** After any sequence of changes of `x`, `aT`, clock resets and updates that ends with an
update, the relations hold, with `x` and `aT` the last values written. -/
theorem C22_after_update (c : Consts) (p : Params) (ops : List ParamsOp) (rho S : ℝ)
    (hMp : 0 < c.Mp) (hm : p.m ≠ 0) (hx : (ops.foldl (Params.apply c) p).x ≠ 0) :
    let q := (ops ++ [ParamsOp.update rho S]).foldl (Params.apply c) p
    q.Consistent ∧ q.x = (ops.foldl (Params.apply c) p).x ∧
      q.aT = (ops.foldl (Params.apply c) p).aT ∧ q.a = q.x / q.m ∧ q.T = q.aT * q.m / q.x ∧
      q.rho = some rho ∧ q.S = some S ∧ q.H = Real.sqrt (8 * Real.pi / 3 * c.G * rho) := by
  intro q
  set r := ops.foldl (Params.apply c) p with hr
  have hq : q = r.update c rho S := by
    simp only [q, List.foldl_append, List.foldl_cons, List.foldl_nil]; rfl
  have hrm : r.m ≠ 0 := by rw [hr, Params.apply_m]; exact hm
  rw [hq]
  have ha : (r.update c rho S).a = r.x / r.m := rfl
  refine ⟨⟨?_, ?_⟩, rfl, rfl, rfl, ?_, rfl, rfl, ?_⟩
  · show r.x / r.m * r.m = r.x
    field_simp
  · show r.aT / (r.x / r.m) * (r.x / r.m) = r.aT
    field_simp
  · show r.aT / (r.x / r.m) = r.aT * r.m / r.x
    field_simp
  · show Real.sqrt (8 / 3 * Real.pi * rho) / c.Mp = _
    have e : 8 * Real.pi / 3 * c.G * rho = 8 / 3 * Real.pi * rho / c.Mp ^ 2 := by
      rw [Consts.G]; ring
    rw [e, Real.sqrt_div' _ (sq_nonneg _), Real.sqrt_sq hMp.le]

/-- A 10 MeV start with the default logarithmic step: `a = 0.1`, `x = 0.1`. -/
example : ∃ p, Params.new ⟨1, 1⟩ true { T := some 10, dy := some 0.05 } = .ok p ∧
    p.Consistent ∧ p.aT = 1 := by
  obtain ⟨p, hp⟩ := (C22_creation_iff ⟨1, 1⟩ true { T := some 10, dy := some 0.05 }).mpr
    ⟨⟨10, rfl, by norm_num⟩, 0.05, rfl, by norm_num⟩
  have h := C22_creation _ _ _ _ hp
  exact ⟨p, hp, h.1, by rw [h.2.1, h.2.2.2.1]; rfl⟩

end PyBBN
