import Verif.Props.Thermo
import Mathlib.Analysis.Calculus.Deriv.Add
import Verif.Lemmas.Evolution
/-!
# The temperature equation is energy conservation (C69–C71)

Specification: with `a = x/m` the covariant conservation law is `d(a³ρ) + p d(a³) = 0`.
-/
namespace PyBBN

open Finset

/-! ## Specification -/

/-- Comoving energy of a momentum mode: `√(y² + (M a)²)`, `a = x/m`. -/
noncomputable def modeE (M m y x : ℝ) : ℝ := √(y ^ 2 + (M * (x / m)) ^ 2)

/-- Thermal occupation of a mode at comoving temperature `θ`. -/
noncomputable def modeF (eta : ℤ) (E θ : ℝ) : ℝ := 1 / (Real.exp (E / θ) + eta)

/-- `ρ a⁴` of a species: radiation law, sum over the momentum nodes of a thermal distribution, or sum over
the grid of the evolving distribution `f x k`. -/
noncomputable def confEnergy (rule : Rule) (m : ℝ) (t : TPart) (f : ℝ → ℕ → ℝ) (x θ : ℝ) : ℝ :=
  match t.regime with
  | .radiation => t.sp.dof * Real.pi ^ 2 / 30 * (if t.sp.fermion then 7 / 8 else 1) * θ ^ 4
  | .intermediate => t.sp.dof / (2 * Real.pi ^ 2) * gaussian rule (fun y =>
      y ^ 2 * modeE t.sp.mass m y x * modeF t.sp.eta (modeE t.sp.mass m y x) θ) t.ymin t.ymax
  | .dust => t.sp.dof / (2 * Real.pi ^ 2) * gaussian rule (fun y =>
      y ^ 2 * modeE t.sp.mass m y x * modeF t.sp.eta (modeE t.sp.mass m y x) θ) t.ymin t.ymax
  | .noneq => t.sp.dof / (2 * Real.pi ^ 2) * ∑ k ∈ range t.grid.n,
      t.grid.w k * (t.grid.y k ^ 2 * modeE t.sp.mass m (t.grid.y k) x * f x k)

/-- `p a⁴` of a species: a third of the momentum times velocity. -/
noncomputable def confPressure (rule : Rule) (m : ℝ) (t : TPart) (f : ℝ → ℕ → ℝ) (x θ : ℝ) : ℝ :=
  match t.regime with
  | .radiation => t.sp.dof * Real.pi ^ 2 / 90 * (if t.sp.fermion then 7 / 8 else 1) * θ ^ 4
  | .intermediate => t.sp.dof / (6 * Real.pi ^ 2) * gaussian rule (fun y =>
      y ^ 4 / modeE t.sp.mass m y x * modeF t.sp.eta (modeE t.sp.mass m y x) θ) t.ymin t.ymax
  | .dust => t.sp.dof / (6 * Real.pi ^ 2) * gaussian rule (fun y =>
      y ^ 4 / modeE t.sp.mass m y x * modeF t.sp.eta (modeE t.sp.mass m y x) θ) t.ymin t.ymax
  | .noneq => t.sp.dof / (6 * Real.pi ^ 2) * ∑ k ∈ range t.grid.n,
      t.grid.w k * (t.grid.y k ^ 4 / modeE t.sp.mass m (t.grid.y k) x * f x k)

/-- Total `ρ a⁴` and `p a⁴` of a list of species with their distributions. -/
noncomputable def totalConfEnergy (rule : Rule) (m : ℝ) (l : List (TPart × (ℝ → ℕ → ℝ))) (x θ : ℝ) : ℝ :=
  (l.map fun s => confEnergy rule m s.1 s.2 x θ).sum

noncomputable def totalConfPressure (rule : Rule) (m : ℝ) (l : List (TPart × (ℝ → ℕ → ℝ))) (x θ : ℝ) : ℝ :=
  (l.map fun s => confPressure rule m s.1 s.2 x θ).sum

/-- The conservation law at `x` for a temperature history `θ`:
`d(a³ρ)/dx = -p d(a³)/dx`, `ρ = ρ a⁴/(x/m)⁴` and likewise for `p`. -/
def EnergyConserved (rule : Rule) (m : ℝ) (l : List (TPart × (ℝ → ℕ → ℝ))) (θ : ℝ → ℝ) (x : ℝ) : Prop :=
  HasDerivAt (fun x => (x / m) ^ 3 * (totalConfEnergy rule m l x (θ x) / (x / m) ^ 4))
    (-(totalConfPressure rule m l x (θ x) / (x / m) ^ 4) * (3 * (x / m) ^ 2 / m)) x

/-! ## Derivatives -/

theorem gaussian_hasDerivAt (rule : Rule) (F : ℝ → ℝ → ℝ) (F' : ℝ → ℝ) (a b x : ℝ)
    (h : ∀ y, HasDerivAt (fun x => F x y) (F' y) x) :
    HasDerivAt (fun x => gaussian rule (F x) a b) (gaussian rule F' a b) x := by
  unfold gaussian
  dsimp only
  split_ifs with h0
  · exact hasDerivAt_const x 0
  · refine HasDerivAt.const_mul _ ?_
    induction rule with
    | nil => simpa using hasDerivAt_const x (0 : ℝ)
    | cons r rs ih =>
      simp only [List.map_cons, List.sum_cons]
      exact ((h _).mul_const _).add ih

theorem gaussian_lin (rule : Rule) (f g : ℝ → ℝ) (c d a b : ℝ) :
    c * gaussian rule f a b + d * gaussian rule g a b =
      gaussian rule (fun y => c * f y + d * g y) a b := (C19_linear rule f g c d a b).symm

theorem gaussian_congr (rule : Rule) (f g : ℝ → ℝ) (a b : ℝ) (h : ∀ y, f y = g y) :
    gaussian rule f a b = gaussian rule g a b := by
  rw [show f = g from funext h]

theorem modeE_pos (M m y x : ℝ) (hM : 0 < M) (hx : 0 < x) (hm : 0 < m) : 0 < modeE M m y x := by
  unfold modeE
  exact Real.sqrt_pos.mpr (by positivity)

theorem modeE_sq (M m y x : ℝ) : modeE M m y x ^ 2 = y ^ 2 + (M * (x / m)) ^ 2 :=
  Real.sq_sqrt (by positivity)

theorem modeE_hasDerivAt (M m y x : ℝ) (hM : 0 ≤ M) (hx : 0 < x) (hm : 0 < m) :
    HasDerivAt (fun x => modeE M m y x) (M ^ 2 * x / m ^ 2 / modeE M m y x) x := by
  rcases eq_or_lt_of_le hM with h | h
  · subst h
    have : (fun x => modeE 0 m y x) = fun _ => √(y ^ 2) := by funext x; simp [modeE]
    rw [this]
    simpa using hasDerivAt_const x (√(y ^ 2))
  · have hE := modeE_pos M m y x h hx hm
    have d1 : HasDerivAt (fun x => y ^ 2 + (M * (x / m)) ^ 2) (2 * (M * (x / m)) * (M / m)) x := by
      have := ((((hasDerivAt_id x).div_const m).const_mul M).fun_pow 2).const_add (y ^ 2)
      refine this.congr_deriv ?_
      simp only [id]; ring
    have := d1.sqrt (by positivity)
    refine this.congr_deriv ?_
    unfold modeE at hE ⊢
    field_simp

theorem conformalEnergy_eq (sp : Species) (y m x : ℝ) (hM : 0 ≤ sp.mass) :
    conformalEnergy sp y (sp.mass * (x / m)) = modeE sp.mass m y x := by
  unfold conformalEnergy modeE
  split_ifs with h
  · rfl
  · have : sp.mass = 0 := le_antisymm (not_lt.mp h) hM
    rw [this]; simp [Real.sqrt_sq_eq_abs]

theorem exp_eta_ne (sp : Species) (e : ℝ) (he : 0 < e) : Real.exp e + sp.eta ≠ 0 := by
  have := Real.one_lt_exp_iff.mpr he
  unfold Species.eta
  split_ifs <;> push_cast <;> intro h <;> linarith

/-- What the state of a run satisfies at the point considered: parameters consistent with `x`, masses
non-negative (positive for massive equilibrium species), equilibrium species at the plasma temperature. -/
structure StateAt (m x θ : ℝ) (p : Params) (t : TPart) : Prop where
  px : p.x = x
  pm : p.m = m
  pa : p.a = x / m
  paT : p.aT = θ
  taT : t.regime = .radiation → t.aT = θ
  mass : 0 ≤ t.sp.mass
  massive : t.regime = .intermediate ∨ t.regime = .dust → 0 < t.sp.mass

theorem massive_deriv (rule : Rule) (m : ℝ) (t : TPart) (θ : ℝ → ℝ) (θ' x : ℝ) (p : Params)
    (hx : 0 < x) (hm : 0 < m) (hθ : 0 < θ x) (dθ : HasDerivAt θ θ' x) (hM : 0 < t.sp.mass)
    (px : p.x = x) (pm : p.m = m) (pa : p.a = x / m) (paT : p.aT = θ x) :
    HasDerivAt (fun x => t.sp.dof / (2 * Real.pi ^ 2) * gaussian rule (fun y =>
        y ^ 2 * modeE t.sp.mass m y x * modeF t.sp.eta (modeE t.sp.mass m y x) (θ x)) t.ymin t.ymax)
      ((t.sp.dof / (2 * Real.pi ^ 2) * gaussian rule (fun y =>
        y ^ 2 * modeE t.sp.mass m y x * modeF t.sp.eta (modeE t.sp.mass m y x) (θ x)) t.ymin t.ymax
        - 3 * (t.sp.dof / (6 * Real.pi ^ 2) * gaussian rule (fun y =>
        y ^ 4 / modeE t.sp.mass m y x * modeF t.sp.eta (modeE t.sp.mass m y x) (θ x)) t.ymin t.ymax)) / x
        + intDenominator t.sp p (intLegendre rule t.sp t.ymin t.ymax p) * θ'
        - intNumerator t.sp p (intLegendre rule t.sp t.ymin t.ymax p)) x := by
  have hpi := Real.pi_pos
  have key : ∀ y, HasDerivAt (fun x =>
      y ^ 2 * modeE t.sp.mass m y x * modeF t.sp.eta (modeE t.sp.mass m y x) (θ x))
      (y ^ 2 * (t.sp.mass ^ 2 * x / m ^ 2 / modeE t.sp.mass m y x) *
          modeF t.sp.eta (modeE t.sp.mass m y x) (θ x) +
        y ^ 2 * modeE t.sp.mass m y x *
          (-(Real.exp (modeE t.sp.mass m y x / θ x) *
            ((t.sp.mass ^ 2 * x / m ^ 2 / modeE t.sp.mass m y x * θ x - modeE t.sp.mass m y x * θ')
              / θ x ^ 2)) / (Real.exp (modeE t.sp.mass m y x / θ x) + t.sp.eta) ^ 2)) x := by
    intro y
    have hE := modeE_pos t.sp.mass m y x hM hx hm
    have hne := exp_eta_ne t.sp (modeE t.sp.mass m y x / θ x) (div_pos hE hθ)
    have dE := modeE_hasDerivAt t.sp.mass m y x hM.le hx hm
    have dq := (dE.fun_div dθ hθ.ne').exp.add_const (t.sp.eta : ℝ)
    have dF := (hasDerivAt_const x (1 : ℝ)).fun_div dq hne
    have d := (dE.const_mul (y ^ 2)).mul dF
    refine HasDerivAt.congr_deriv d ?_
    unfold modeF
    ring
  refine ((gaussian_hasDerivAt rule _ _ t.ymin t.ymax x key).const_mul _).congr_deriv ?_
  unfold intDenominator intNumerator intLegendre
  rw [px, pm, paT, pa]
  have hconf : ∀ y, conformalEnergy t.sp y (t.sp.mass * (x / m)) = modeE t.sp.mass m y x :=
    fun y => conformalEnergy_eq t.sp y m x hM.le
  simp only [hconf]
  set A := gaussian rule (fun y =>
    y ^ 2 * modeE t.sp.mass m y x * modeF t.sp.eta (modeE t.sp.mass m y x) (θ x)) t.ymin t.ymax with hA
  set P := gaussian rule (fun y =>
    y ^ 4 / modeE t.sp.mass m y x * modeF t.sp.eta (modeE t.sp.mass m y x) (θ x)) t.ymin t.ymax with hP
  set I2 := gaussian rule (fun y => y ^ 2 * Real.exp (modeE t.sp.mass m y x / θ x) /
    (Real.exp (modeE t.sp.mass m y x / θ x) + t.sp.eta) ^ 2) t.ymin t.ymax with hI2
  set I4 := gaussian rule (fun y => y ^ 4 * Real.exp (modeE t.sp.mass m y x / θ x) /
    (Real.exp (modeE t.sp.mass m y x / θ x) + t.sp.eta) ^ 2) t.ymin t.ymax with hI4
  have hsplit : gaussian rule (fun y =>
      y ^ 2 * (t.sp.mass ^ 2 * x / m ^ 2 / modeE t.sp.mass m y x) *
          modeF t.sp.eta (modeE t.sp.mass m y x) (θ x) +
        y ^ 2 * modeE t.sp.mass m y x *
          (-(Real.exp (modeE t.sp.mass m y x / θ x) *
            ((t.sp.mass ^ 2 * x / m ^ 2 / modeE t.sp.mass m y x * θ x - modeE t.sp.mass m y x * θ')
              / θ x ^ 2)) / (Real.exp (modeE t.sp.mass m y x / θ x) + t.sp.eta) ^ 2)) t.ymin t.ymax =
      1 * (1 / x * A + (-1 / x) * P) + 1 * ((θ' / θ x ^ 2) * I4 +
        ((t.sp.mass * (x / m)) ^ 2 * θ' / θ x ^ 2 - t.sp.mass ^ 2 * x / m ^ 2 / θ x) * I2) := by
    rw [hA, hP, hI2, hI4, gaussian_lin, gaussian_lin, gaussian_lin]
    refine gaussian_congr _ _ _ _ _ fun y => ?_
    have hE := modeE_pos t.sp.mass m y x hM hx hm
    have hne := exp_eta_ne t.sp (modeE t.sp.mass m y x / θ x) (div_pos hE hθ)
    have e2 := modeE_sq t.sp.mass m y x
    have hμ : t.sp.mass ^ 2 * x ^ 2 = (modeE t.sp.mass m y x ^ 2 - y ^ 2) * m ^ 2 := by
      rw [e2]; field_simp; ring
    generalize modeE t.sp.mass m y x = E at *
    generalize modeF t.sp.eta E (θ x) = F
    generalize Real.exp (E / θ x) = ex at *
    generalize θ x = th at *
    have hM2 : t.sp.mass ^ 2 = (E ^ 2 - y ^ 2) * m ^ 2 / x ^ 2 := by
      rw [← hμ]; field_simp
    have hM3 : (t.sp.mass * (x / m)) ^ 2 = E ^ 2 - y ^ 2 := by rw [e2]; ring
    rw [hM2, hM3]
    field_simp
    ring
  rw [hsplit]
  field_simp
  ring

/-- One species: `x dρ̂/dx = ρ̂ - 3 p̂ + x (D θ' - N)` with the code's numerator `N` and denominator `D`. -/
theorem species_deriv (rule : Rule) (m : ℝ) (t : TPart) (f : ℝ → ℕ → ℝ) (f' : ℕ → ℝ) (θ : ℝ → ℝ)
    (θ' x : ℝ) (p : Params) (hx : 0 < x) (hm : 0 < m) (hθ : 0 < θ x) (dθ : HasDerivAt θ θ' x)
    (st : StateAt m x (θ x) p t)
    (df : t.regime = .noneq → ∀ k, HasDerivAt (fun x => f x k) (f' k) x) :
    HasDerivAt (fun x => confEnergy rule m t f x (θ x))
      ((confEnergy rule m t f x (θ x) - 3 * confPressure rule m t f x (θ x)) / x
        + (t.denominator (intLegendre rule) p * θ' - (if t.regime = .noneq then
            neqNumerator t.grid t.sp p (fun k => x * f' k) else t.numerator (intLegendre rule) p))) x := by
  unfold confEnergy confPressure TPart.denominator TPart.numerator
  cases hr : t.regime with
  | radiation =>
    simp only [reduceCtorEq, if_false]
    have d := (dθ.fun_pow 4).const_mul
      (t.sp.dof * Real.pi ^ 2 / 30 * (if t.sp.fermion then 7 / 8 else 1))
    refine HasDerivAt.congr_deriv d ?_
    unfold radDenominator
    rw [st.taT hr]
    dsimp only
    split_ifs <;> push_cast <;> field_simp <;> ring
  | intermediate =>
    simp only [reduceCtorEq, if_false]
    have := massive_deriv rule m t θ θ' x p hx hm hθ dθ (st.massive (Or.inl hr)) st.px st.pm st.pa st.paT
    refine this.congr_deriv ?_
    ring
  | dust =>
    simp only [reduceCtorEq, if_false]
    have := massive_deriv rule m t θ θ' x p hx hm hθ dθ (st.massive (Or.inr hr)) st.px st.pm st.pa st.paT
    refine this.congr_deriv ?_
    ring
  | noneq =>
    simp only [if_true]
    have hpi := Real.pi_pos
    have key : HasDerivAt (fun x => ∑ k ∈ range t.grid.n, t.grid.w k *
        (t.grid.y k ^ 2 * modeE t.sp.mass m (t.grid.y k) x * f x k))
        (∑ k ∈ range t.grid.n, t.grid.w k *
          (t.grid.y k ^ 2 * (t.sp.mass ^ 2 * x / m ^ 2 / modeE t.sp.mass m (t.grid.y k) x) * f x k +
            t.grid.y k ^ 2 * modeE t.sp.mass m (t.grid.y k) x * f' k)) x := by
      refine HasDerivAt.fun_sum fun k _ => ?_
      exact (((modeE_hasDerivAt t.sp.mass m (t.grid.y k) x st.mass hx hm).const_mul _).mul
        (df hr k)).const_mul _
    refine (key.const_mul _).congr_deriv ?_
    unfold neqNumerator simps
    rw [st.px, st.pa]
    simp only [conformalEnergy_eq t.sp _ m x st.mass]
    have e : ∀ k, t.grid.w k *
          (t.grid.y k ^ 2 * (t.sp.mass ^ 2 * x / m ^ 2 / modeE t.sp.mass m (t.grid.y k) x) * f x k +
            t.grid.y k ^ 2 * modeE t.sp.mass m (t.grid.y k) x * f' k) =
        (1 / x) * (t.grid.w k * (t.grid.y k ^ 2 * modeE t.sp.mass m (t.grid.y k) x * f x k)) -
        (1 / x) * (t.grid.w k * (t.grid.y k ^ 4 / modeE t.sp.mass m (t.grid.y k) x * f x k)) +
        t.grid.w k * (t.grid.y k ^ 2 * modeE t.sp.mass m (t.grid.y k) x * f' k) := by
      intro k
      have e2 := modeE_sq t.sp.mass m (t.grid.y k) x
      generalize t.grid.y k = y at *
      by_cases hE : modeE t.sp.mass m y x = 0
      · rw [hE]; simp
      · have hM : (t.sp.mass * (x / m)) ^ 2 = modeE t.sp.mass m y x ^ 2 - y ^ 2 := by rw [e2]; ring
        have hM2 : t.sp.mass ^ 2 = (modeE t.sp.mass m y x ^ 2 - y ^ 2) * m ^ 2 / x ^ 2 := by
          rw [← hM]; field_simp
        rw [hM2]
        field_simp
    simp only [e]
    rw [Finset.sum_add_distrib, Finset.sum_sub_distrib, ← Finset.mul_sum, ← Finset.mul_sum]
    have e3 : ∀ k, t.grid.w k * (-1 * t.sp.dof / 2 / Real.pi ^ 2 * t.grid.y k ^ 2 *
        modeE t.sp.mass m (t.grid.y k) x * (x * f' k) / x) =
        (-(t.sp.dof / (2 * Real.pi ^ 2))) *
          (t.grid.w k * (t.grid.y k ^ 2 * modeE t.sp.mass m (t.grid.y k) x * f' k)) := by
      intro k; field_simp
    simp only [e3]
    rw [← Finset.mul_sum]
    field_simp
    ring

/-! ## The whole content -/

theorem temperatureTerms_eq (Int : Species → ℝ → ℝ → Params → ℕ → ℝ) (p : Params) (l : List TPart) :
    temperatureTerms Int p l =
      ((l.map fun t => t.numerator Int p).sum, (l.map fun t => t.denominator Int p).sum) := by
  unfold temperatureTerms
  have : ∀ acc : ℝ × ℝ, l.foldl (addTerms Int p) acc =
      (acc.1 + (l.map fun t => t.numerator Int p).sum,
       acc.2 + (l.map fun t => t.denominator Int p).sum) := by
    induction l with
    | nil => intro acc; simp
    | cons t ts ih =>
      intro acc
      rw [List.foldl_cons, ih]
      simp only [addTerms, List.map_cons, List.sum_cons, add_assoc]
  rw [this]; simp

/-- Rate of change of the distribution per unit of `x` implied by the update
`distribution += collision_integral * h`, where `h` is a step of `ln x` in logarithmic mode and of `x`
otherwise. -/
noncomputable def collRate (p : Params) (t : TPart) (k : ℕ) : ℝ :=
  if p.log then t.coll k / p.x else t.coll k

/-- The true numerator of the non-equilibrium part: minus the energy gained per unit of `x`. -/
noncomputable def trueNumerator (rule : Rule) (p : Params) (t : TPart) : ℝ :=
  if t.regime = .noneq then neqNumerator t.grid t.sp p (fun k => p.x * collRate p t k)
  else t.numerator (intLegendre rule) p

theorem total_deriv (rule : Rule) (m : ℝ) (l : List (TPart × (ℝ → ℕ → ℝ))) (θ : ℝ → ℝ) (θ' x : ℝ)
    (p : Params) (hx : 0 < x) (hm : 0 < m) (hθ : 0 < θ x) (dθ : HasDerivAt θ θ' x)
    (st : ∀ s ∈ l, StateAt m x (θ x) p s.1)
    (df : ∀ s ∈ l, s.1.regime = .noneq → ∀ k, HasDerivAt (fun x => s.2 x k) (collRate p s.1 k) x) :
    HasDerivAt (fun x => totalConfEnergy rule m l x (θ x))
      ((totalConfEnergy rule m l x (θ x) - 3 * totalConfPressure rule m l x (θ x)) / x
        + ((temperatureTerms (intLegendre rule) p (l.map Prod.fst)).2 * θ'
          - (l.map fun s => trueNumerator rule p s.1).sum)) x := by
  rw [temperatureTerms_eq]
  unfold totalConfEnergy totalConfPressure
  induction l with
  | nil => simpa using hasDerivAt_const x (0 : ℝ)
  | cons s ss ih =>
    simp only [List.map_cons, List.sum_cons]
    have i := ih (fun s h => st s (List.mem_cons_of_mem _ h)) fun s h => df s (List.mem_cons_of_mem _ h)
    have hs := st s List.mem_cons_self
    have d := species_deriv rule m s.1 s.2 (collRate p s.1) θ θ' x p hx hm hθ dθ hs
      (df s List.mem_cons_self)
    refine HasDerivAt.congr_deriv (d.add i) ?_
    unfold trueNumerator
    rw [hs.px]
    ring

/-- **C69 (balance).** Along any history the failure of energy conservation is
`(D θ' - N)/a`, with the code's denominator `D`. -/
theorem C69_balance (rule : Rule) (m : ℝ) (l : List (TPart × (ℝ → ℕ → ℝ))) (θ : ℝ → ℝ) (θ' x : ℝ)
    (p : Params) (hx : 0 < x) (hm : 0 < m) (hθ : 0 < θ x) (dθ : HasDerivAt θ θ' x)
    (st : ∀ s ∈ l, StateAt m x (θ x) p s.1)
    (df : ∀ s ∈ l, s.1.regime = .noneq → ∀ k, HasDerivAt (fun x => s.2 x k) (collRate p s.1 k) x) :
    HasDerivAt (fun x => (x / m) ^ 3 * (totalConfEnergy rule m l x (θ x) / (x / m) ^ 4))
      (-(totalConfPressure rule m l x (θ x) / (x / m) ^ 4) * (3 * (x / m) ^ 2 / m) +
        ((temperatureTerms (intLegendre rule) p (l.map Prod.fst)).2 * θ'
          - (l.map fun s => trueNumerator rule p s.1).sum) / (x / m)) x := by
  have d := total_deriv rule m l θ θ' x p hx hm hθ dθ st df
  have da : HasDerivAt (fun x : ℝ => x / m) (1 / m) x := (hasDerivAt_id x).div_const m
  have ha : x / m ≠ 0 := (div_pos hx hm).ne'
  have d3 := (da.fun_pow 3).mul (d.fun_div (da.fun_pow 4) (pow_ne_zero 4 ha))
  refine HasDerivAt.congr_deriv d3 ?_
  push_cast
  field_simp
  ring

/-- Energy is conserved exactly when `D θ' = N`. -/
theorem energyConserved_iff (rule : Rule) (m : ℝ) (l : List (TPart × (ℝ → ℕ → ℝ))) (θ : ℝ → ℝ) (θ' x : ℝ)
    (p : Params) (hx : 0 < x) (hm : 0 < m) (hθ : 0 < θ x) (dθ : HasDerivAt θ θ' x)
    (st : ∀ s ∈ l, StateAt m x (θ x) p s.1)
    (df : ∀ s ∈ l, s.1.regime = .noneq → ∀ k, HasDerivAt (fun x => s.2 x k) (collRate p s.1 k) x) :
    EnergyConserved rule m l θ x ↔ (temperatureTerms (intLegendre rule) p (l.map Prod.fst)).2 * θ'
          = (l.map fun s => trueNumerator rule p s.1).sum := by
  have h := C69_balance rule m l θ θ' x p hx hm hθ dθ st df
  unfold EnergyConserved
  have ha : x / m ≠ 0 := (div_pos hx hm).ne'
  constructor
  · intro hc
    have := h.unique hc
    have h0 : ((temperatureTerms (intLegendre rule) p (l.map Prod.fst)).2 * θ'
          - (l.map fun s => trueNumerator rule p s.1).sum) / (x / m) = 0 := by linarith
    rw [div_eq_zero_iff] at h0
    rcases h0 with h0 | h0
    · linarith
    · exact absurd h0 ha
  · intro hc
    rw [hc, sub_self, zero_div, add_zero] at h
    exact h

theorem trueNumerator_log (rule : Rule) (p : Params) (t : TPart) (hlog : p.log = true) (hx : p.x ≠ 0) :
    trueNumerator rule p t = t.numerator (intLegendre rule) p := by
  unfold trueNumerator collRate TPart.numerator
  cases t.regime <;> simp [hlog, mul_div_cancel₀, hx]

theorem trueNumerator_eq (rule : Rule) (p : Params) (t : TPart) (h : t.regime ≠ .noneq) :
    trueNumerator rule p t = t.numerator (intLegendre rule) p := by
  unfold trueNumerator; rw [if_neg h]

/-- **C69 (logarithmic mode).** For any mixture of radiation, massive equilibrium species and
non-equilibrium species, the comoving temperature that moves with the code's slope `d(aT)/d ln x`
conserves energy, and no other slope does. -/
theorem C69_log (rule : Rule) (m : ℝ) (l : List (TPart × (ℝ → ℕ → ℝ))) (θ : ℝ → ℝ) (θ' x : ℝ)
    (p : Params) (hx : 0 < x) (hm : 0 < m) (hθ : 0 < θ x) (dθ : HasDerivAt θ θ' x)
    (st : ∀ s ∈ l, StateAt m x (θ x) p s.1) (hlog : p.log = true) (hpx : p.x = x)
    (df : ∀ s ∈ l, s.1.regime = .noneq → ∀ k, HasDerivAt (fun x => s.2 x k) (s.1.coll k / x) x)
    (hD : (temperatureTerms (intLegendre rule) p (l.map Prod.fst)).2 ≠ 0) :
    EnergyConserved rule m l θ x ↔ x * θ' = temperatureSlope (intLegendre rule) p (l.map Prod.fst) := by
  rw [energyConserved_iff rule m l θ θ' x p hx hm hθ dθ st (by
    intro s hs hr k; unfold collRate; rw [if_pos hlog, hpx]; exact df s hs hr k)]
  have hN : (l.map fun s => trueNumerator rule p s.1).sum =
      (temperatureTerms (intLegendre rule) p (l.map Prod.fst)).1 := by
    rw [temperatureTerms_eq, List.map_map]
    congr 1
    refine List.map_congr_left fun s _ => ?_
    exact trueNumerator_log rule p s.1 hlog (hpx ▸ hx.ne')
  rw [hN]
  unfold temperatureSlope
  dsimp only
  rw [if_pos hlog, hpx, eq_div_iff hD]
  constructor
  · intro h; rw [← h]; ring
  · intro h
    have : x * ((temperatureTerms (intLegendre rule) p (l.map Prod.fst)).2 * θ') =
        x * (temperatureTerms (intLegendre rule) p (l.map Prod.fst)).1 := by rw [← h]; ring
    exact mul_left_cancel₀ hx.ne' this

/-- **C69 (linear mode, equilibrium content).** -/
theorem C69_linear_equilibrium (rule : Rule) (m : ℝ) (l : List (TPart × (ℝ → ℕ → ℝ))) (θ : ℝ → ℝ)
    (θ' x : ℝ) (p : Params) (hx : 0 < x) (hm : 0 < m) (hθ : 0 < θ x) (dθ : HasDerivAt θ θ' x)
    (st : ∀ s ∈ l, StateAt m x (θ x) p s.1) (hlog : p.log = false)
    (heq : ∀ s ∈ l, s.1.regime ≠ .noneq)
    (hD : (temperatureTerms (intLegendre rule) p (l.map Prod.fst)).2 ≠ 0) :
    EnergyConserved rule m l θ x ↔ θ' = temperatureSlope (intLegendre rule) p (l.map Prod.fst) := by
  rw [energyConserved_iff rule m l θ θ' x p hx hm hθ dθ st (fun s hs hr => absurd hr (heq s hs))]
  have hN : (l.map fun s => trueNumerator rule p s.1).sum =
      (temperatureTerms (intLegendre rule) p (l.map Prod.fst)).1 := by
    rw [temperatureTerms_eq, List.map_map]
    congr 1
    exact List.map_congr_left fun s hs => trueNumerator_eq rule p s.1 (heq s hs)
  rw [hN]
  unfold temperatureSlope
  dsimp only
  rw [if_neg (by rw [hlog]; simp), eq_div_iff hD, mul_comm]

/-- Sum of the code's non-equilibrium numerators. -/
noncomputable def neqSum (rule : Rule) (p : Params) (l : List (TPart × (ℝ → ℕ → ℝ))) : ℝ :=
  (l.map fun s => if s.1.regime = .noneq then s.1.numerator (intLegendre rule) p else 0).sum

/-- **C70 (linear mode, refuted).** In linear mode the collision integral is already the rate per unit
of `x`, yet the numerator divides it by `x` again.  With the code's slope energy is conserved if and only
if `x = 1` in the unit system used or the non-equilibrium species exchange no energy. -/
theorem C70_linear_mode (rule : Rule) (m : ℝ) (l : List (TPart × (ℝ → ℕ → ℝ))) (θ : ℝ → ℝ)
    (x : ℝ) (p : Params) (hx : 0 < x) (hm : 0 < m) (hθ : 0 < θ x)
    (dθ : HasDerivAt θ (temperatureSlope (intLegendre rule) p (l.map Prod.fst)) x)
    (st : ∀ s ∈ l, StateAt m x (θ x) p s.1) (hlog : p.log = false) (hpx : p.x = x)
    (df : ∀ s ∈ l, s.1.regime = .noneq → ∀ k, HasDerivAt (fun x => s.2 x k) (s.1.coll k) x)
    (hD : (temperatureTerms (intLegendre rule) p (l.map Prod.fst)).2 ≠ 0) :
    EnergyConserved rule m l θ x ↔ x = 1 ∨ neqSum rule p l = 0 := by
  rw [energyConserved_iff rule m l θ _ x p hx hm hθ dθ st (by
    intro s hs hr k; unfold collRate; rw [if_neg (by rw [hlog]; simp)]; exact df s hs hr k)]
  have hN : (l.map fun s => trueNumerator rule p s.1).sum =
      (temperatureTerms (intLegendre rule) p (l.map Prod.fst)).1 + (x - 1) * neqSum rule p l := by
    rw [temperatureTerms_eq, List.map_map]
    unfold neqSum
    have hx' := hx.ne'
    clear dθ st df hD
    induction l with
    | nil => simp
    | cons s ss ih =>
      simp only [List.map_cons, List.sum_cons, Function.comp] at ih ⊢
      rw [ih]
      by_cases hr : s.1.regime = .noneq
      · rw [if_pos hr]
        have : trueNumerator rule p s.1 = x * s.1.numerator (intLegendre rule) p := by
          unfold trueNumerator collRate TPart.numerator
          rw [if_pos hr, hr, hpx]
          simp only [hlog, Bool.false_eq_true, if_false]
          unfold neqNumerator simps
          rw [Finset.mul_sum]
          refine Finset.sum_congr rfl fun k _ => ?_
          ring
        rw [this]; ring
      · rw [if_neg hr, trueNumerator_eq rule p s.1 hr]; ring
  rw [hN]
  unfold temperatureSlope
  dsimp only
  rw [if_neg (by rw [hlog]; simp), mul_div_cancel₀ _ hD]
  constructor
  · intro h
    have h0 : (x - 1) * neqSum rule p l = 0 := by linarith
    rcases mul_eq_zero.mp h0 with r | r
    · exact Or.inl (by linarith)
    · exact Or.inr r
  · rintro (h | h)
    · rw [h]; ring
    · rw [h]; ring

/-! ## The specification's energies are the code's -/

theorem gaussian_scale (rule : Rule) (F : ℝ → ℝ) (a b : ℝ) (ha : a ≠ 0) :
    gaussian rule F 0 (b / a) = 1 / a * gaussian rule (fun y => F (y / a)) 0 b := by
  unfold gaussian
  dsimp only
  by_cases hb : b = 0
  · simp [hb]
  · rw [if_neg (by simp [hb, ha]), if_neg (by simpa using hb)]
    have : ∀ xw : ℝ × ℝ, (b / a - 0) / 2 * xw.1 + (b / a + 0) / 2 =
        ((b - 0) / 2 * xw.1 + (b + 0) / 2) / a := by intro xw; field_simp; ring
    simp only [this]
    ring

theorem physEnergy_scale (sp : Species) (y m x : ℝ) (hM : 0 ≤ sp.mass) (ha : 0 < x / m) :
    physEnergy sp (y / (x / m)) = modeE sp.mass m y x / (x / m) := by
  have h1 := physEnergy_sq sp (y / (x / m)) hM
  have h2 := modeE_sq sp.mass m y x
  have h3 : 0 ≤ modeE sp.mass m y x := Real.sqrt_nonneg _
  have h4 := physEnergy_nonneg sp (y / (x / m))
  rw [← abs_of_nonneg h4, ← abs_of_nonneg (div_nonneg h3 ha.le), ← sq_eq_sq_iff_abs_eq_abs, h1,
    div_pow (modeE sp.mass m y x), h2]
  generalize x / m = a at *
  field_simp

theorem stat_eq (sp : Species) (E θ : ℝ) : sp.stat (E / θ) = modeF sp.eta E θ := by
  unfold Species.stat modeF Fermi Bose Species.eta
  split_ifs <;> simp [sub_eq_add_neg]

/-- **C69 (energies).** The energies and pressures in the conservation law are those the code reports:
radiation and non-equilibrium species always, massive equilibrium species when the momentum bounds are
those of `energy_density` (`0` and `20 T a`). -/
theorem C69_code_energy (rule : Rule) (m x θ : ℝ) (p : Params) (t : TPart) (f : ℝ → ℕ → ℝ)
    (hx : 0 < x) (hm : 0 < m) (pa : p.a = x / m) (hM : 0 ≤ t.sp.mass) :
    (t.regime = .radiation →
      radEnergyDensity t.sp (θ / p.a) = confEnergy rule m t f x θ / p.a ^ 4 ∧
      radPressure t.sp (θ / p.a) = confPressure rule m t f x θ / p.a ^ 4) ∧
    (t.regime = .noneq → (t.sp.mass = 0 → ∀ k, 0 ≤ t.grid.y k) →
      neqEnergyDensity t.grid t.sp p (f x) = confEnergy rule m t f x θ / p.a ^ 4 ∧
      neqPressure t.grid t.sp p (f x) = confPressure rule m t f x θ / p.a ^ 4) ∧
    (t.regime = .intermediate → t.ymin = 0 → t.ymax = 20 * θ → θ ≠ 0 →
      intEnergyDensity rule t.sp (θ / p.a) = confEnergy rule m t f x θ / p.a ^ 4 ∧
      intPressure rule t.sp (θ / p.a) = confPressure rule m t f x θ / p.a ^ 4) := by
  have ha : 0 < x / m := div_pos hx hm
  have hpi := Real.pi_pos
  have ha' := ha.ne'
  refine ⟨fun hr => ?_, fun hr hy => ?_, fun hr h0 h1 hθ => ?_⟩
  · unfold radPressure radEnergyDensity confEnergy confPressure
    rw [pa]
    generalize x / m = a at *
    simp only [hr]
    constructor <;> split_ifs <;> field_simp <;> ring
  · unfold neqEnergyDensity neqPressure confEnergy confPressure simps
    rw [pa]
    simp only [hr, conformalEnergy_eq t.sp _ m x hM]
    generalize x / m = a at *
    constructor
    · rw [Finset.mul_sum, Finset.sum_div]
      refine Finset.sum_congr rfl fun k _ => ?_
      field_simp
    · split_ifs with hm0
      · rw [Finset.mul_sum, Finset.sum_div]
        refine Finset.sum_congr rfl fun k _ => ?_
        have : modeE t.sp.mass m (t.grid.y k) x = t.grid.y k := by
          unfold modeE; rw [hm0]; simp [Real.sqrt_sq (hy hm0 k)]
        rw [this]
        rcases eq_or_lt_of_le (hy hm0 k) with h | h
        · rw [← h]; simp
        · field_simp
      · rw [Finset.mul_sum, Finset.sum_div]
        refine Finset.sum_congr rfl fun k _ => ?_
        ring
  · unfold intEnergyDensity intPressure confEnergy confPressure
    rw [pa]
    simp only [hr, h0, h1]
    rw [← mul_div_assoc, gaussian_scale _ _ _ _ ha', gaussian_scale _ _ _ _ ha']
    simp only [physEnergy_scale t.sp _ m x hM ha]
    have hdiv : ∀ E : ℝ, E / (x / m) / (θ / (x / m)) = E / θ := by
      intro E; field_simp
    simp only [hdiv, stat_eq]
    generalize x / m = a at *
    have s1 := fun (F : ℝ → ℝ) (c : ℝ) => gaussian_lin rule F F c 0 0 (20 * θ)
    constructor
    · have := s1 (fun y => y ^ 2 * modeE t.sp.mass m y x * modeF t.sp.eta (modeE t.sp.mass m y x) θ)
        (t.sp.dof / (2 * Real.pi ^ 2) / a ^ 3)
      simp only [zero_mul, add_zero] at this
      have e : t.sp.dof / (2 * Real.pi ^ 2) * gaussian rule (fun y => y ^ 2 * modeE t.sp.mass m y x *
          modeF t.sp.eta (modeE t.sp.mass m y x) θ) 0 (20 * θ) / a ^ 4 =
          1 / a * (t.sp.dof / (2 * Real.pi ^ 2) / a ^ 3 * gaussian rule (fun y =>
            y ^ 2 * modeE t.sp.mass m y x * modeF t.sp.eta (modeE t.sp.mass m y x) θ) 0 (20 * θ)) := by
        field_simp
      rw [e, this]
      congr 1
      refine gaussian_congr _ _ _ _ _ fun y => ?_
      field_simp
    · have := s1 (fun y => y ^ 4 / modeE t.sp.mass m y x * modeF t.sp.eta (modeE t.sp.mass m y x) θ)
        (t.sp.dof / (6 * Real.pi ^ 2) / a ^ 3)
      simp only [zero_mul, add_zero] at this
      have e : t.sp.dof / (6 * Real.pi ^ 2) * gaussian rule (fun y => y ^ 4 / modeE t.sp.mass m y x *
          modeF t.sp.eta (modeE t.sp.mass m y x) θ) 0 (20 * θ) / a ^ 4 =
          1 / a * (t.sp.dof / (6 * Real.pi ^ 2) / a ^ 3 * gaussian rule (fun y =>
            y ^ 4 / modeE t.sp.mass m y x * modeF t.sp.eta (modeE t.sp.mass m y x) θ) 0 (20 * θ)) := by
        field_simp
      rw [e, this]
      congr 1
      refine gaussian_congr _ _ _ _ _ fun y => ?_
      by_cases hE : modeE t.sp.mass m y x = 0
      · rw [hE]; simp
      · field_simp

/-! ## C71: equilibrium content never cools the comoving temperature -/

theorem C71_terms (rule : Rule) (hw : ∀ xw ∈ rule, 0 ≤ xw.2 ∧ -1 ≤ xw.1 ∧ xw.1 ≤ 1) (p : Params)
    (l : List TPart) (hx : 0 < p.x) (haT : 0 < p.aT)
    (hl : ∀ t ∈ l, t.regime ≠ .noneq ∧ 0 ≤ t.sp.dof ∧ t.ymin ≤ t.ymax ∧ t.aT = p.aT)
    (hrad : ∃ t ∈ l, t.regime = .radiation ∧ 0 < t.sp.dof) :
    0 ≤ (temperatureTerms (intLegendre rule) p l).1 ∧ 0 < (temperatureTerms (intLegendre rule) p l).2 ∧
    0 ≤ temperatureSlope (intLegendre rule) p l := by
  have Q := gaussian_posQuad rule hw
  have hpi := Real.pi_pos
  have hInt : ∀ t ∈ l, ∀ k, Even k → 0 ≤ intLegendre rule t.sp t.ymin t.ymax p k := by
    intro t ht k hk
    obtain ⟨-, hg, hb, -⟩ := hl t ht
    unfold intLegendre
    refine mul_nonneg (by positivity) (Q.nonneg _ _ _ hb fun y _ _ => ?_)
    have := hk.pow_nonneg y
    positivity
  have hN : ∀ t ∈ l, 0 ≤ t.numerator (intLegendre rule) p := by
    intro t ht
    have h2 := hInt t ht 2 (by decide)
    unfold TPart.numerator
    cases hr : t.regime with
    | radiation => exact le_rfl
    | intermediate => unfold intNumerator; positivity
    | dust => unfold intNumerator; positivity
    | noneq => exact absurd hr (hl t ht).1
  have hD : ∀ t ∈ l, 0 ≤ t.denominator (intLegendre rule) p := by
    intro t ht
    have h2 := hInt t ht 2 (by decide)
    have h4 := hInt t ht 4 (by decide)
    obtain ⟨-, hg, -, ht'⟩ := hl t ht
    unfold TPart.denominator
    cases hr : t.regime with
    | radiation =>
      simp only [radDenominator]; rw [ht']
      split_ifs <;> positivity
    | intermediate => unfold intDenominator; positivity
    | dust => unfold intDenominator; positivity
    | noneq => exact le_rfl
  rw [show temperatureSlope (intLegendre rule) p l = if p.log then
    p.x * (temperatureTerms (intLegendre rule) p l).1 / (temperatureTerms (intLegendre rule) p l).2
    else (temperatureTerms (intLegendre rule) p l).1 / (temperatureTerms (intLegendre rule) p l).2 from rfl,
    temperatureTerms_eq]
  have s1 : 0 ≤ (l.map fun t => t.numerator (intLegendre rule) p).sum :=
    List.sum_nonneg fun y hy => by
      obtain ⟨t, ht, rfl⟩ := List.mem_map.mp hy; exact hN t ht
  have s2 : 0 < (l.map fun t => t.denominator (intLegendre rule) p).sum := by
    obtain ⟨t, ht, hr, hg⟩ := hrad
    have hpos : 0 < t.denominator (intLegendre rule) p := by
      unfold TPart.denominator radDenominator
      rw [hr, (hl t ht).2.2.2]
      dsimp only
      split_ifs <;> positivity
    have : t.denominator (intLegendre rule) p ≤ (l.map fun t => t.denominator (intLegendre rule) p).sum :=
      List.single_le_sum (fun y hy => by
        obtain ⟨t, ht, rfl⟩ := List.mem_map.mp hy; exact hD t ht) _ (List.mem_map_of_mem ht)
    linarith
  refine ⟨s1, s2, ?_⟩
  split_ifs <;> positivity

/-- **C71.** If the temperature terms have a non-negative numerator and a positive denominator whenever
the temperature is positive (as `C71_terms` shows for equilibrium content), then in every run with Euler
steps the comoving temperature never decreases. -/
theorem C71_run {W : Type*} (ph : Physics W) (c : Consts)
    (hph : ∀ w p, p.Reg → 0 < p.aT → 0 ≤ (ph.terms w p).2.1 ∧ 0 < (ph.terms w p).2.2)
    (s s' : List Row × Uni W) (n : ℕ) (hr : s.2.params.Reg) (haT : 0 < s.2.params.aT)
    (hh : 0 < s.2.params.h) (h : runN ph c false n s = .ok s') :
    s.2.params.aT ≤ s'.2.params.aT := by
  refine (runN_invariant (fun n a => s.2.params.aT ≤ a.2.params.aT ∧
    a.2.params.h = s.2.params.h ∧ a.2.params.Reg) s ⟨le_rfl, rfl, hr⟩ ?_ n s' h).1
  rintro n a b ⟨i1, i2, ireg⟩ st
  obtain ⟨d, hd, he, _⟩ := st.aT
  refine ⟨?_, by rw [st.h, i2], st.reg ireg⟩
  rw [hd, he rfl, i2, st.frac]
  obtain ⟨k1, k2⟩ := hph a.2.w a.2.params ireg (by linarith)
  have hx := ireg.x
  have : 0 ≤ (if a.2.params.log = true then
      a.2.params.x * (ph.terms a.2.w a.2.params).2.1 / (ph.terms a.2.w a.2.params).2.2
      else (ph.terms a.2.w a.2.params).2.1 / (ph.terms a.2.w a.2.params).2.2) := by
    split_ifs <;> positivity
  nlinarith

/-! ## Instances -/

/-- A plasma of photons, electrons and a decoupled neutrino, in a unit system where `m = 1`. -/
def demoPhoton (θ : ℝ) : TPart :=
  ⟨⟨"photon", 0, 2, false, true, 0, [], false, 1⟩, θ, 0, 20, .radiation, ⟨0, fun _ => 0, fun _ => 0⟩,
    fun _ => 0⟩

def demoElectron (θ : ℝ) : TPart :=
  ⟨⟨"electron", 1, 4, true, true, -1, [], false, 1⟩, θ, 0, 20, .intermediate,
    ⟨0, fun _ => 0, fun _ => 0⟩, fun _ => 0⟩

def demoNeutrino (θ c : ℝ) : TPart :=
  ⟨⟨"neutrino", 0, 2, true, true, 0, [], false, 1⟩, θ, 0, 20, .noneq, ⟨1, fun _ => 1, fun _ => 1⟩,
    fun _ => c⟩

noncomputable def masterState (log : Bool) (x θ : ℝ) : Params :=
  ⟨log, 1, θ / x, x, x, x, none, θ, 0, 1, none, none, 0, 0.05, x * 0.05, 0.05⟩

theorem demo_stateAt (log : Bool) (x θ c : ℝ) :
    ∀ t ∈ [demoPhoton θ, demoElectron θ, demoNeutrino θ c], StateAt 1 x θ (masterState log x θ) t := by
  intro t ht
  simp only [List.mem_cons, List.not_mem_nil, or_false] at ht
  rcases ht with rfl | rfl | rfl <;>
    refine ⟨rfl, rfl, by simp [masterState], rfl, fun _ => rfl, ?_, ?_⟩ <;>
    simp [demoPhoton, demoElectron, demoNeutrino]

/-- The hypotheses of `C69_log` and `C70_linear_mode` are met with energy exchange. -/
example (rule : Rule) (hw : ∀ xw ∈ rule, 0 ≤ xw.2 ∧ -1 ≤ xw.1 ∧ xw.1 ≤ 1) (log : Bool) :
    (temperatureTerms (intLegendre rule) (masterState log 2 1)
      [demoPhoton 1, demoElectron 1, demoNeutrino 1 1]).2 ≠ 0 := by
  have h := (C71_terms rule hw (masterState log 2 1) [demoPhoton 1, demoElectron 1] (by norm_num [masterState])
    (by norm_num [masterState]) (by
      intro t ht
      simp only [List.mem_cons, List.not_mem_nil, or_false] at ht
      rcases ht with rfl | rfl <;> refine ⟨?_, ?_⟩ <;>
        first | exact fun h => by cases h | norm_num [demoPhoton, demoElectron, masterState])
    ⟨demoPhoton 1, by simp, rfl, by norm_num [demoPhoton]⟩).2.1
  rw [temperatureTerms_eq] at h ⊢
  simp only [List.map_cons, List.map_nil, List.sum_cons, List.sum_nil] at h ⊢
  have : (demoNeutrino 1 1).denominator (intLegendre rule) (masterState log 2 1) = 0 := rfl
  rw [this]
  linarith

/-- **C70 (witness).** With photons, electrons and a neutrino gaining energy at `x = 2`, a temperature
following the code's linear-mode slope violates energy conservation. -/
theorem C70_violated (rule : Rule)
    (θ : ℝ → ℝ) (h1 : θ 2 = 1)
    (hD : (temperatureTerms (intLegendre rule) (masterState false 2 1)
      [demoPhoton 1, demoElectron 1, demoNeutrino 1 1]).2 ≠ 0)
    (dθ : HasDerivAt θ (temperatureSlope (intLegendre rule) (masterState false 2 1)
      [demoPhoton 1, demoElectron 1, demoNeutrino 1 1]) 2) :
    ¬ EnergyConserved rule 1 [(demoPhoton 1, fun _ _ => 0), (demoElectron 1, fun _ _ => 0),
      (demoNeutrino 1 1, fun x _ => x)] θ 2 := by
  rw [C70_linear_mode rule 1 [(demoPhoton 1, fun _ _ => 0), (demoElectron 1, fun _ _ => 0),
      (demoNeutrino 1 1, fun x _ => x)] θ 2 (masterState false 2 1) (by norm_num) (by norm_num) (by rw [h1]; norm_num)
    dθ (by
      rw [h1]
      intro s hs
      refine demo_stateAt false 2 1 1 s.1 ?_
      have := List.mem_map_of_mem (f := Prod.fst) hs
      exact this) rfl rfl (by
      intro s hs hr k
      simp only [List.mem_cons, List.not_mem_nil, or_false] at hs
      rcases hs with rfl | rfl | rfl
      · cases hr
      · cases hr
      · exact hasDerivAt_id 2) hD]
  rintro (h | h)
  · norm_num at h
  · have hpi := Real.pi_pos
    simp only [neqSum, List.map_cons, List.map_nil, List.sum_cons, List.sum_nil, demoPhoton, demoElectron,
      reduceCtorEq, if_false] at h
    simp only [demoNeutrino, if_true, TPart.numerator, neqNumerator, simps, Finset.sum_range_one,
      conformalEnergy, lt_irrefl, if_false, masterState, gt_iff_lt] at h
    have : (0 : ℝ) < 2 / 2 / Real.pi ^ 2 / 2 := by positivity
    norm_num at h

end PyBBN
