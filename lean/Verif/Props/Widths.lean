import Verif.Props.Owners
import Verif.Props.DecayRate
import Verif.Props.FermiRate
import Verif.Props.SterileWidths
import Verif.Model.Templates
/-!
# C101: decay widths declared by the library

Specification: textbook widths of the two-body decays of pions and of a heavy neutrino and of the decays of muons and heavy
neutrinos into massless particles, in terms of `G_F`, decay constants, mixing angles and masses.
-/
namespace PyBBN

variable {ι : Type*} {S : Type*} [DecidableEq S]

/-! ## Specification -/

/-- The three-particle integral of the declared decay `P → x y` into empty states (kind `F_f_vacuum_decay`), with the
species of the declaration. -/
structure Decays (A : LibAttr S) (P x y : S) (amp : Amp) (i : Int3 ι) (p : Params) (sched : List (List ℕ)) : Prop where
  amp : amp = .three i.K
  mass0 : (i.sp 0).mass = A.mass P
  mass1 : (i.sp 1).mass = A.mass x
  mass2 : (i.sp 2).mass = A.mass y
  schedule : ValidSchedule (i.sp 0).grid.length sched
  sides : i.side 0 = -1 ∧ i.side 1 = 1 ∧ i.side 2 = 1
  kind : i.kind = .ffVac
  slow : (i.sp 0).fastDecay = false
  neglect : i.neglect = false
  creation : i.creationFast = false
  a : 0 < p.a
  aT : 0 < p.aT
  parent : 0 < A.mass P
  first : 0 ≤ A.mass x
  second : 0 ≤ A.mass y
  opened : A.mass x + A.mass y ≤ A.mass P
  readable : ∀ k, Readable (toC (i.sp k) (i.st k) p)
  grid : ∃ ys, (i.sp 0).grid = 0 :: ys ∧ ∀ z ∈ ys, 0 < z
  len : (i.st 0).dist.length = (i.sp 0).grid.length

/-- At every momentum the particle disappears at the rate `Γ M/E`, per unit of `ln a` (or of `a`). -/
def Disappears (i : Int3 ι) (p : Params) (sched : List (List ℕ)) (Γ : ℝ) : Prop :=
  integrate3 i p sched = .ok (.one (List.zipWith
    (fun y f => -(Γ * ((i.sp 0).mass / energyOf (i.sp 0).mass (y / p.a)) * i.mult / p.H * f) / (if p.log then 1 else p.x))
    (i.sp 0).grid (i.st 0).dist))

theorem disappears {A : LibAttr S} {P x y : S} {amp : Amp} {i : Int3 ι} {p : Params} {sched : List (List ℕ)}
    (h : Decays A P x y amp i p sched) (Γ : ℝ)
    (hΓ : i.K * restMomentum (A.mass P) (A.mass x) (A.mass y) / (8 * Real.pi * A.mass P ^ 2) /
      dofFactor i.majorana (i.sp 0).dof = Γ) : Disappears i p sched Γ := by
  obtain ⟨ys, hg, hys⟩ := h.grid
  have := C86_rate i p sched h.schedule h.sides h.kind h.slow h.neglect h.creation h.a h.aT (by rw [h.mass0]; exact h.parent)
    (by rw [h.mass1]; exact h.first) (by rw [h.mass2]; exact h.second) (by rw [h.mass0, h.mass1, h.mass2]; exact h.opened)
    h.readable ys hg hys h.len
  unfold Disappears
  rw [this]
  congr 2
  have hf : (fun y f : ℝ => -(i.K * restMomentum (i.sp 0).mass (i.sp 1).mass (i.sp 2).mass / (8 * Real.pi * (i.sp 0).mass ^ 2) *
      ((i.sp 0).mass / energyOf (i.sp 0).mass (y / p.a)) / dofFactor i.majorana (i.sp 0).dof * i.mult / p.H * f) /
      (if p.log then 1 else p.x)) = fun y f : ℝ => -(Γ * ((i.sp 0).mass / energyOf (i.sp 0).mass (y / p.a)) * i.mult / p.H * f) /
      (if p.log then 1 else p.x) := by
    funext y f
    rw [← hΓ, h.mass0, h.mass1, h.mass2]
    ring
  exact congrFun (congrFun (congrArg List.zipWith hf) _) _

/-! ## Kinematics -/

theorem rest_two (M m : ℝ) (hM : 0 < M) (hm : 0 ≤ m) (h : m ≤ M) :
    restMomentum M 0 m = M * (1 - (m / M) ^ 2) / 2 ∧ restMomentum M m 0 = M * (1 - (m / M) ^ 2) / 2 := by
  have e : √((M ^ 2 - m ^ 2) * (M ^ 2 - m ^ 2)) = M ^ 2 - m ^ 2 := Real.sqrt_mul_self (by nlinarith)
  unfold restMomentum
  constructor
  · rw [show (M ^ 2 - (0 + m) ^ 2) * (M ^ 2 - (0 - m) ^ 2) = (M ^ 2 - m ^ 2) * (M ^ 2 - m ^ 2) by ring, e]
    field_simp
  · rw [show (M ^ 2 - (m + 0) ^ 2) * (M ^ 2 - (m - 0) ^ 2) = (M ^ 2 - m ^ 2) * (M ^ 2 - m ^ 2) by ring, e]
    field_simp

theorem rest_general (M m1 m2 : ℝ) (hM : 0 < M) : restMomentum M m1 m2 =
    M / 2 * √((1 - (m1 / M + m2 / M) ^ 2) * (1 - (m1 / M - m2 / M) ^ 2)) := by
  unfold restMomentum
  rw [show (M ^ 2 - (m1 + m2) ^ 2) * (M ^ 2 - (m1 - m2) ^ 2) =
    (M ^ 2) ^ 2 * ((1 - (m1 / M + m2 / M) ^ 2) * (1 - (m1 / M - m2 / M) ^ 2)) by field_simp,
    Real.sqrt_mul (by positivity), Real.sqrt_sq (by positivity)]
  field_simp

/-! ## Two-body decays -/

variable (A : LibAttr S) (c : LibConst)

/-- **C101 (charged pion).** `Γ(π → l ν) = G_F² f² |V_ud|² m_l² m_π (1 - m_l²/m_π²)² / (8π)`. -/
theorem C101_charged_pion (P l n : S) (d : Decl S) (hd : d ∈ decayChargedPion A c P l n) (i : Int3 ι) (p : Params)
    (sched : List (List ℕ)) (h : Decays A P l n d.amp i p sched) (hn : A.mass n = 0) (hl : 0 < A.mass l)
    (hdof : i.majorana = false ∧ (i.sp 0).dof = 2) :
    Disappears i p sched (c.GF ^ 2 * A.decayConstant P ^ 2 * c.CKM 1 1 ^ 2 * A.mass l ^ 2 * A.mass P *
      (1 - (A.mass l / A.mass P) ^ 2) ^ 2 / (8 * Real.pi)) := by
  have hK : i.K = 2 * (c.GF * A.decayConstant P * c.CKM 1 1) ^ 2 * A.mass l ^ 4 * ((A.mass P / A.mass l) ^ 2 - 1) := by
    have := h.amp
    simp only [decayChargedPion, List.map_cons, List.map_nil, List.mem_cons, List.not_mem_nil, or_false] at hd
    rcases hd with rfl | rfl <;> exact (Amp.three.inj this).symm
  have hM := h.parent
  have ho := h.opened
  refine disappears h _ ?_
  rw [hK, hn, (rest_two _ _ hM hl.le (by linarith)).2, hdof.1, hdof.2]
  have := Real.pi_ne_zero
  unfold dofFactor
  simp only [Bool.false_eq_true, if_false]
  field_simp
  try ring

/-- **C101 (neutral pion).** `Γ(π⁰ → γ γ) = α² m_π³ / (32 π³ f²)`. -/
theorem C101_neutral_pion (P g : S) (d : Decl S) (hd : d ∈ decayNeutralPion A c P g) (i : Int3 ι) (p : Params)
    (sched : List (List ℕ)) (h : Decays A P g g d.amp i p sched) (hg : A.mass g = 0)
    (hdof : i.majorana = true ∧ (i.sp 0).dof = 1) :
    Disappears i p sched (c.alpha ^ 2 * A.mass P ^ 3 / (32 * Real.pi ^ 3 * A.decayConstant P ^ 2)) := by
  have hK : i.K = c.alpha ^ 2 * A.mass P ^ 4 / (2 * Real.pi ^ 2 * A.decayConstant P ^ 2) := by
    have := h.amp
    simp only [decayNeutralPion, List.mem_singleton] at hd
    subst hd
    exact (Amp.three.inj this).symm
  have hM := h.parent
  refine disappears h _ ?_
  rw [hK, hg, (rest_two _ _ hM le_rfl hM.le).1, hdof.1, hdof.2]
  have := Real.pi_ne_zero
  unfold dofFactor
  simp only [if_true]
  by_cases hf : A.decayConstant P = 0
  · simp [hf]
  · field_simp
    try ring

/-- **C101 (heavy neutrino, neutral scalar).** `Γ(N → ν P) = G_F² f² θ² M³ (1 - x²)² / (32π)`, `x = m_P/M` (Dirac). -/
theorem C101_neutral_scalar (θ : ℝ) (N a P : S) (d : Decl S) (hd : d ∈ neutralScalar A c θ N a P) (i : Int3 ι) (p : Params)
    (sched : List (List ℕ)) (h : Decays A N a P d.amp i p sched) (ha : A.mass a = 0)
    (hdof : i.majorana = false ∧ (i.sp 0).dof = 4) :
    Disappears i p sched (c.GF ^ 2 * A.decayConstant P ^ 2 * θ ^ 2 * A.mass N ^ 3 * (1 - (A.mass P / A.mass N) ^ 2) ^ 2 /
      (32 * Real.pi)) := by
  have hK : i.K = (c.GF * θ * A.decayConstant P) ^ 2 * A.mass N ^ 4 * |1 - (A.mass P / A.mass N) ^ 2| := by
    have := h.amp
    simp only [neutralScalar, List.map_cons, List.map_nil, List.mem_cons, List.not_mem_nil, or_false] at hd
    rcases hd with rfl | rfl <;> exact (Amp.three.inj this).symm
  have hM := h.parent
  have hP := h.second
  have ho : A.mass P ≤ A.mass N := by have := h.opened; linarith
  have hx : 0 ≤ 1 - (A.mass P / A.mass N) ^ 2 := by
    have h1 : A.mass P / A.mass N ≤ 1 := (div_le_one hM).mpr ho
    have h0 : 0 ≤ A.mass P / A.mass N := div_nonneg hP hM.le
    nlinarith
  refine disappears h _ ?_
  rw [hK, ha, (rest_two _ _ hM hP ho).1, abs_of_nonneg hx, hdof.1, hdof.2]
  have := Real.pi_ne_zero
  unfold dofFactor
  simp only [Bool.false_eq_true, if_false]
  generalize (1 - (A.mass P / A.mass N) ^ 2) = u
  field_simp
  try ring

/-- **C101 (heavy neutrino, neutral vector).** `Γ(N → ν V) = G_F² f² κ² θ² M³ (1 + 2x²)(1 - x²)² / (32π)` (Dirac), with
`κ = 1 - 2 s²` for the rho, `4 s²/3` for the omega and `4 s²/3 - 1` for the phi meson. -/
theorem C101_neutral_vector (θ : ℝ) (N a P : S) (ds : List (Decl S)) (hds : neutralVector A c θ N a P = some ds) (d : Decl S)
    (hd : d ∈ ds) (i : Int3 ι) (p : Params) (sched : List (List ℕ)) (h : Decays A N a P d.amp i p sched) (ha : A.mass a = 0)
    (hdof : i.majorana = false ∧ (i.sp 0).dof = 4) :
    ∃ κ : ℝ, ((A.name P = "Neutral rho" ∧ κ = 1 - 2 * c.sin2) ∨ (A.name P = "Omega" ∧ κ = 4 * c.sin2 / 3) ∨
      (A.name P = "Phi" ∧ κ = 4 * c.sin2 / 3 - 1)) ∧
    Disappears i p sched (c.GF ^ 2 * A.decayConstant P ^ 2 * κ ^ 2 * θ ^ 2 * A.mass N ^ 3 *
      (1 + 2 * (A.mass P / A.mass N) ^ 2) * (1 - (A.mass P / A.mass N) ^ 2) ^ 2 / (32 * Real.pi)) := by
  obtain ⟨κ, hκ, rfl⟩ := Option.map_eq_some_iff.mp hds
  refine ⟨κ, ?_, ?_⟩
  · unfold kappa at hκ
    split_ifs at hκ with h1 h2 h3
    · exact Or.inl ⟨h1, (Option.some.inj hκ).symm⟩
    · exact Or.inr (Or.inl ⟨h2, (Option.some.inj hκ).symm⟩)
    · exact Or.inr (Or.inr ⟨h3, (Option.some.inj hκ).symm⟩)
  have hK : i.K = (c.GF * θ * A.decayConstant P * κ) ^ 2 * A.mass N ^ 4 * (1 + 2 * (A.mass P / A.mass N) ^ 2) *
      (1 - (A.mass P / A.mass N) ^ 2) := by
    have := h.amp
    simp only [List.map_cons, List.map_nil, List.mem_cons, List.not_mem_nil, or_false] at hd
    rcases hd with rfl | rfl <;> exact (Amp.three.inj this).symm
  have hM := h.parent
  have ho : A.mass P ≤ A.mass N := by have := h.opened; linarith
  refine disappears h _ ?_
  rw [hK, ha, (rest_two _ _ hM h.second ho).1, hdof.1, hdof.2]
  have := Real.pi_ne_zero
  unfold dofFactor
  simp only [Bool.false_eq_true, if_false]
  generalize (1 - (A.mass P / A.mass N) ^ 2) = u
  generalize (1 + 2 * (A.mass P / A.mass N) ^ 2) = v
  field_simp
  try ring

/-- **C101 (heavy neutrino, charged scalar).**
`Γ(N → l P) = G_F² f² |V_ud|² θ² M³ ((1 - y²)² - x²(1 + y²)) √((1 - (y + x)²)(1 - (y - x)²)) / (16π)`, `x = m_P/M`,
`y = m_l/M` (Dirac). -/
theorem C101_charged_scalar (θ : ℝ) (N l P : S) (d : Decl S) (hd : d ∈ chargedScalar A c θ N l P) (i : Int3 ι) (p : Params)
    (sched : List (List ℕ)) (h : Decays A N l P d.amp i p sched) (hdof : i.majorana = false ∧ (i.sp 0).dof = 4) :
    let x := A.mass P / A.mass N
    let y := A.mass l / A.mass N
    Disappears i p sched (c.GF ^ 2 * A.decayConstant P ^ 2 * c.CKM 1 1 ^ 2 * θ ^ 2 * A.mass N ^ 3 *
      ((1 - y ^ 2) ^ 2 - x ^ 2 * (1 + y ^ 2)) * √((1 - (y + x) ^ 2) * (1 - (y - x) ^ 2)) / (16 * Real.pi)) := by
  intro x y
  have hM := h.parent
  have hx : 0 ≤ x := div_nonneg h.second hM.le
  have hy : 0 ≤ y := div_nonneg h.first hM.le
  have hxy : y + x ≤ 1 := by
    have : y + x = (A.mass l + A.mass P) / A.mass N := by simp only [x, y]; ring
    rw [this, div_le_one hM]
    exact h.opened
  have hpos : 0 ≤ (1 - y ^ 2) ^ 2 - x ^ 2 * (1 + y ^ 2) := by
    have h1 : x ^ 2 ≤ (1 - y) ^ 2 := pow_le_pow_left₀ hx (by linarith) 2
    have h2 : (1 - y ^ 2) ^ 2 - x ^ 2 * (1 + y ^ 2) = ((1 - y) ^ 2 - x ^ 2) * (1 + y ^ 2) + 2 * y * (1 - y) ^ 2 := by ring
    rw [h2]
    have := sub_nonneg.mpr h1
    positivity
  have hK : i.K = 2 * (c.GF * θ * A.decayConstant P * c.CKM 1 1) ^ 2 * A.mass N ^ 4 *
      |(1 - y ^ 2) ^ 2 - x ^ 2 * (1 + y ^ 2)| := by
    have := h.amp
    simp only [chargedScalar, List.map_cons, List.map_nil, List.mem_cons, List.not_mem_nil, or_false] at hd
    rcases hd with rfl | rfl <;> exact (Amp.three.inj this).symm
  refine disappears h _ ?_
  rw [hK, rest_general _ _ _ hM, abs_of_nonneg hpos, hdof.1, hdof.2]
  change _ * (A.mass N / 2 * √((1 - (y + x) ^ 2) * (1 - (y - x) ^ 2))) / _ / _ = _
  have := Real.pi_ne_zero
  unfold dofFactor
  simp only [Bool.false_eq_true, if_false]
  generalize √((1 - (y + x) ^ 2) * (1 - (y - x) ^ 2)) = s
  generalize (1 - y ^ 2) ^ 2 - x ^ 2 * (1 + y ^ 2) = u
  field_simp
  try ring

/-- **C101 (heavy neutrino, charged vector).**
`Γ(N → l V) = G_F² f² |V_ud|² θ² M³ ((1 - y²)² + x²(1 + y²) - 2x⁴) √((1 - (y + x)²)(1 - (y - x)²)) / (16π)` (Dirac), with
the angle `θ` passed by the caller. -/
theorem C101_charged_vector (θ : ℝ) (N l P : S) (d : Decl S) (hd : d ∈ chargedVector A c θ N l P) (i : Int3 ι) (p : Params)
    (sched : List (List ℕ)) (h : Decays A N l P d.amp i p sched) (hdof : i.majorana = false ∧ (i.sp 0).dof = 4) :
    let x := A.mass P / A.mass N
    let y := A.mass l / A.mass N
    Disappears i p sched (c.GF ^ 2 * A.decayConstant P ^ 2 * c.CKM 1 1 ^ 2 * θ ^ 2 * A.mass N ^ 3 *
      ((1 - y ^ 2) ^ 2 + x ^ 2 * (1 + y ^ 2) - 2 * x ^ 4) * √((1 - (y + x) ^ 2) * (1 - (y - x) ^ 2)) / (16 * Real.pi)) := by
  intro x y
  have hM := h.parent
  have hK : i.K = 2 * (c.GF * θ * A.decayConstant P * c.CKM 1 1) ^ 2 * A.mass N ^ 4 *
      ((1 - y ^ 2) ^ 2 + x ^ 2 * (1 + y ^ 2) - 2 * x ^ 4) := by
    have := h.amp
    simp only [chargedVector, List.map_cons, List.map_nil, List.mem_cons, List.not_mem_nil, or_false] at hd
    rcases hd with rfl | rfl <;> exact (Amp.three.inj this).symm
  refine disappears h _ ?_
  rw [hK, rest_general _ _ _ hM, hdof.1, hdof.2]
  change _ * (A.mass N / 2 * √((1 - (y + x) ^ 2) * (1 - (y - x) ^ 2))) / _ / _ = _
  have := Real.pi_ne_zero
  unfold dofFactor
  simp only [Bool.false_eq_true, if_false]
  generalize √((1 - (y + x) ^ 2) * (1 - (y - x) ^ 2)) = s
  generalize (1 - y ^ 2) ^ 2 + x ^ 2 * (1 + y ^ 2) - 2 * x ^ 4 = u
  field_simp
  try ring

/-! ## Which angle enters -/

/-- **C101 (charged scalar mesons, declared).** The decays into a lepton and a charged scalar meson are declared with the angle
of the lepton. -/
theorem C101_charged_scalar_declared (thetas : String → ℝ) (N last : S) (leptons mesons : List S) (l x : S) (hl : l ∈ leptons)
    (hx : x ∈ mesons) (hQ : A.Q x = -1) (ht : A.mesonType x = "scalar") (hθ : thetas (A.flavour l) ≠ 0) :
    ∀ d ∈ chargedScalar A c (thetas (A.flavour l)) N l x, d ∈ sterileChargedMesons A c thetas N last leptons mesons := by
  intro d hd
  unfold sterileChargedMesons
  refine List.mem_flatMap.mpr ⟨l, List.mem_filter.mpr ⟨hl, by simpa using hθ⟩, ?_⟩
  refine List.mem_flatMap.mpr ⟨x, List.mem_filter.mpr ⟨hx, by simpa using hQ⟩, ?_⟩
  rw [if_pos ht]
  exact hd

/-- **C101 (charged vector mesons, failure).** The declared decays into a lepton and a charged vector meson carry the angle of
the last neutrino of the list instead of that of the lepton.  If that angle is zero, the channel is declared with a vanishing
matrix element for every lepton. -/
theorem C101_charged_vector_refuted (thetas : String → ℝ) (N last : S) (leptons mesons : List S) (l x : S) (hl : l ∈ leptons)
    (hx : x ∈ mesons) (hQ : A.Q x = -1) (ht : A.mesonType x = "vector") (hθ : thetas (A.flavour l) ≠ 0) :
    (∀ d ∈ chargedVector A c (thetas (A.flavour last)) N l x, d ∈ sterileChargedMesons A c thetas N last leptons mesons) ∧
    (thetas (A.flavour last) = 0 → (∀ y ∈ mesons, A.mesonType y = "vector") →
      ∀ d ∈ sterileChargedMesons A c thetas N last leptons mesons, d.amp = .three 0) := by
  constructor
  · intro d hd
    unfold sterileChargedMesons
    refine List.mem_flatMap.mpr ⟨l, List.mem_filter.mpr ⟨hl, by simpa using hθ⟩, ?_⟩
    refine List.mem_flatMap.mpr ⟨x, List.mem_filter.mpr ⟨hx, by simpa using hQ⟩, ?_⟩
    rw [if_neg (by rw [ht]; decide), if_pos ht]
    exact hd
  · intro h0 hv d hd
    unfold sterileChargedMesons at hd
    obtain ⟨l', -, hd⟩ := List.mem_flatMap.mp hd
    obtain ⟨y, hy, hd⟩ := List.mem_flatMap.mp hd
    have hy' := hv y (List.mem_of_mem_filter hy)
    rw [if_neg (by rw [hy']; decide), if_pos hy', h0] at hd
    simp only [chargedVector, List.map_cons, List.map_nil, List.mem_cons, List.not_mem_nil, or_false] at hd
    rcases hd with rfl | rfl <;> simp

/-! ## Three-body decays -/

/-- Width of a decay into massless particles with total coefficient `K`, for a parent of mass `m` and `g` spin states. -/
noncomputable def fermiWidth (K m g : ℝ) : ℝ := K * m ^ 5 / (12288 * Real.pi ^ 3 * g)

/-- The integral of kind `Full` of a generated decay of `P` into empty massless states. -/
structure Decays3 (A : LibAttr S) (P : S) (g : Integral4 S) (i : Int4 ι) (p : Params) (sched : List (List ℕ)) : Prop where
  decay : IsDecayOf P g
  elements : i.Ms.map (·.K1) = g.Ms.map (·.K1)
  nonempty : i.Ms ≠ []
  constant : ∀ M ∈ i.Ms, M.K = 0
  order : ∀ M ∈ i.Ms, M.order.Bijective
  mass : (i.sp 0).mass = A.mass P
  parent : 0 < A.mass P
  schedule : ValidSchedule (gridCut4 (i.sp 0).grid i.ub).1.length sched
  side0 : i.side 0 = -1
  side : ∀ k, k ≠ 0 → i.side k = 1
  kind : i.kind = .full
  slow : (i.sp 0).fastDecay = false
  neglect : i.neglect = false
  GF : i.GF ≠ 0
  a : 0 < p.a
  aT : 0 < p.aT
  min1 : i.min1 = 0
  noneq : inEq (i.sp 0) (i.st 0) = false
  grid : ∃ ys, (i.sp 0).grid = 0 :: ys
  inc : (i.sp 0).grid.Pairwise (· < ·)
  len : (i.st 0).dist.length = (i.sp 0).grid.length
  products : ∀ k, k ≠ 0 → EmptyProduct (i.sp k) (i.st k)

/-- **C101 (three-body rate).** Each generated decay integral removes the particle at the rate `Γ m/E` with `Γ` the width
of its own coefficient, at every momentum kept by the grid cut. -/
theorem C101_three_body (A : LibAttr S) (P : S) (g : Integral4 S) (i : Int4 ι) (p : Params) (sched : List (List ℕ))
    (h : Decays3 A P g i p sched) :
    let Γ := fermiWidth (sumK1 g.Ms) (A.mass P) (dofFactor i.majorana (i.sp 0).dof)
    let rate := fun y => Γ * (A.mass P / energyOf (A.mass P) (y / p.a)) * i.mult / p.H / (if p.log then 1 else p.x)
    integrate4 i p sched = .ok (.two
      (List.zipWith (fun y f => -(rate y * f)) (gridCut4 (i.sp 0).grid i.ub).1 (i.st 0).dist ++ (gridCut4 (i.sp 0).grid i.ub).2)
      ((gridCut4 (i.sp 0).grid i.ub).1.map (fun y => -rate y) ++ (gridCut4 (i.sp 0).grid i.ub).2)) := by
  intro Γ rate
  obtain ⟨ys, hg⟩ := h.grid
  have := C89_rate i p sched h.schedule h.side0 h.side h.kind h.slow h.neglect h.GF h.a h.aT h.min1 h.nonempty h.constant h.order
    (by rw [h.mass]; exact h.parent) h.noneq ys hg h.inc h.len h.products
  rw [h.mass, h.elements] at this
  exact this

open Classical in
/-- The widths of the decay integrals of a list add up to the width of the total coefficient. -/
theorem C101_widths_add (P : S) (l : List (Integral4 S)) (m g : ℝ) :
    ((l.filter fun i => IsDecayOf P i).map fun i => fermiWidth (sumK1 i.Ms) m g).sum = fermiWidth (strength P l) m g := by
  unfold strength
  induction (l.filter fun i => IsDecayOf P i) with
  | nil => simp [fermiWidth]
  | cons i l ih =>
    simp only [List.map_cons, List.sum_cons]
    rw [ih]
    unfold fermiWidth
    ring

/-- **C101 (muon).** `Γ(μ → e ν ν) = G_F² m⁵ / (192 π³)`: the declared charged-current reaction of two leptons generates a
decay of the heavier one with this total width (massless products, `g = 2` for four degrees of freedom). -/
theorem C101_muon (hinj : Function.Injective A.name) (l l' n n' : S) (h1 : l' ≠ l) (h2 : n ≠ l) (h3 : n' ≠ l)
    (ho : A.mass l' + A.mass n + A.mass n' < A.mass l) :
    ∃ out, (leptonsCC c n n' l l').integrals A = .ok out ∧
      fermiWidth (strength l out) (A.mass l) (dofFactor false 4) = c.GF ^ 2 * A.mass l ^ 5 / (192 * Real.pi ^ 3) := by
  obtain ⟨out, e, s⟩ := strength_two_two A hinj l l' n n' false true false true [weakM c 4 0 ⟨0, 3, 1, 2⟩] (by
    intro x hx
    rw [List.mem_singleton.mp hx]
    exact ⟨rfl, show [0, 3, 1, 2].Perm (List.range 4) by decide⟩) l h1 h2 h3 rfl rfl
  refine ⟨out, e, ?_⟩
  rw [s, if_pos ho]
  have := Real.pi_ne_zero
  simp only [sumK1, weakM, List.map_cons, List.map_nil, List.sum_cons, List.sum_nil, fermiWidth, dofFactor, Bool.false_eq_true,
    if_false]
  field_simp
  ring

theorem sum_product {α : Type*} (l m : List α) (f : α → α → ℝ) :
    ((l.product m).map fun x => f x.1 x.2).sum = (l.map fun a => (m.map fun b => f a b).sum).sum := by
  induction l with
  | nil => rfl
  | cons a l ih =>
    change ((m.map (fun b => (a, b)) ++ l.product m).map fun x => f x.1 x.2).sum = _
    rw [List.map_append, List.sum_append, ih, List.map_cons, List.sum_cons, List.map_map]
    rfl

/-- **C101 (three neutrinos).** A heavy neutrino and `n` different massless neutrinos, no charged leptons: the total width of
`N → ν ν ν` is `(n + 1) G_F² M⁵ Σ θ² / (768 π³)`; for three neutrinos `G_F² M⁵ Σ θ² / (192 π³)`. -/
theorem C101_three_neutrinos (thetas : String → ℝ) (N : S) (neutrinos : List S) (ok : HeavyOk A N neutrinos [])
    (hn : neutrinos.Nodup) :
    ∃ out, sterileLeptonIntegrals A c thetas N neutrinos [] = .ok out ∧
      fermiWidth (strength N out) (A.mass N) 2 = (neutrinos.length + 1) * c.GF ^ 2 * A.mass N ^ 5 *
        (neutrinos.map fun a => thetas (A.flavour a) ^ 2).sum / (768 * Real.pi ^ 3) ∧
      (neutrinos.length = 3 → fermiWidth (strength N out) (A.mass N) 2 = c.GF ^ 2 * A.mass N ^ 5 *
        (neutrinos.map fun a => thetas (A.flavour a) ^ 2).sum / (192 * Real.pi ^ 3)) := by
  obtain ⟨out, e, s⟩ := C101_strength c thetas N neutrinos [] ok
  have hp : ([] : List S).product neutrinos = [] := rfl
  have inner : ∀ a ∈ neutrinos, (neutrinos.map fun b => thetas (A.flavour a) ^ 2 * (if a = b then (2 : ℝ) else 1)).sum =
      (neutrinos.length + 1) * thetas (A.flavour a) ^ 2 := by
    intro a ha
    rw [List.sum_map_mul_left]
    have : (neutrinos.map fun b => if a = b then (2 : ℝ) else 1).sum = neutrinos.length + 1 := by
      have key : ∀ l : List S, (l.map fun b => if a = b then (2 : ℝ) else 1).sum = l.length + l.count a := by
        intro l
        induction l with
        | nil => simp
        | cons b l ih =>
          rw [List.map_cons, List.sum_cons, ih, List.count_cons, List.length_cons]
          by_cases hb : a = b
          · subst hb; simp; ring
          · rw [if_neg hb, if_neg (by simpa using fun h => hb h.symm)]; push_cast; ring
      rw [key, List.count_eq_one_of_mem hn ha]
      simp
    rw [this]; ring
  have tot : strength N out = 32 * c.GF ^ 2 * ((neutrinos.length + 1) * (neutrinos.map fun a => thetas (A.flavour a) ^ 2).sum) := by
    rw [s, hp, List.map_nil, List.sum_nil, add_zero,
      sum_product neutrinos neutrinos (fun a b => thetas (A.flavour a) ^ 2 * (if a = b then (2 : ℝ) else 1)),
      List.map_congr_left inner, List.sum_map_mul_left]
  have := Real.pi_ne_zero
  refine ⟨out, e, ?_, fun h3 => ?_⟩
  · rw [tot]; unfold fermiWidth; field_simp; ring
  · rw [tot, h3]; unfold fermiWidth; push_cast; field_simp; ring

/-- **C101 (neutrino and a lepton pair).** With `g_R = sin²θ_W = s`, the neutral- and charged-current width of
`N → ν_a l l` in the massless limit is `G_F² M⁵ θ² (1 ± 4 s + 8 s²) / (768 π³)`: plus if the lepton has the flavour of the
neutrino, minus otherwise. -/
theorem C101_lepton_pair (hinj : Function.Injective A.name) (θ : ℝ) (N a l : S) (ha : a ≠ N) (hl : l ≠ N) (hg : c.gR = c.sin2)
    (ho : A.mass a + A.mass l + A.mass l < A.mass N) :
    ∃ out, keepNC A c θ (couplingL A c l a) N a l = .ok out ∧ fermiWidth (strength N out) (A.mass N) 2 =
      c.GF ^ 2 * A.mass N ^ 5 * θ ^ 2 * (1 + (if A.flavour l = A.flavour a then 4 else -4) * c.sin2 + 8 * c.sin2 ^ 2) /
        (768 * Real.pi ^ 3) := by
  obtain ⟨out, e, s⟩ := strength_NC c hinj θ (couplingL A c l a) N a l ha hl
  refine ⟨out, e, ?_⟩
  rw [s, if_pos ho]
  have := Real.pi_ne_zero
  unfold fermiWidth couplingL
  by_cases hf : A.flavour l = A.flavour a
  · rw [if_pos hf, if_pos hf, hg]; field_simp; ring
  · rw [if_neg hf, if_neg hf, hg]; field_simp; ring

/-- **C101 (two different leptons).** `N → ν l l'`: `G_F² M⁵ θ_l² / (192 π³)` in the massless limit. -/
theorem C101_two_leptons (hinj : Function.Injective A.name) (θ : ℝ) (N a l l' : S) (ha : a ≠ N) (hl : l ≠ N) (hl' : l' ≠ N)
    (hn : l ≠ l') (hn' : a ≠ l') (ho : A.mass a + A.mass l' + A.mass l < A.mass N) :
    ∃ out, keepCC A c θ N a l l' = .ok out ∧ fermiWidth (strength N out) (A.mass N) 2 =
      c.GF ^ 2 * A.mass N ^ 5 * θ ^ 2 / (192 * Real.pi ^ 3) := by
  obtain ⟨out, e, s⟩ := strength_CC c hinj θ N a l l' ha hl hl' hn hn'
  refine ⟨out, e, ?_⟩
  rw [s, if_pos ho]
  have := Real.pi_ne_zero
  unfold fermiWidth
  field_simp
  ring

/-! ## Examples -/

section Example
private noncomputable def exSp : Fin 3 → Species := fun i =>
  { name := "X", mass := if i = 0 then 139.57 else if i = 1 then 105.658 else 0, dof := 2, fermion := false,
    thermalDyn := false, Q := 0, grid := [0, 1], fastDecay := false, lifetime := 0 }
private noncomputable def exSt : Fin 3 → PState ℕ := fun i =>
  { T := 1, aT := 1, Tdec := 0, dist := if i = 0 then [1/2, 1/4] else [0, 0], coll := [], integrals := [],
    tDec := 0, decayed := false, density := 0, histDist := [], histColl := [], histT := [], histDensity := [] }
private noncomputable def exP : Params :=
  { log := true, m := 1, T := 1, a := 1, aIni := 1, x := 1, y := none, aT := 1, t := 1, H := 1, rho := none,
    S := none, Neff := 3, dy := 1, dx := 1, h := 1 }
private noncomputable def exInt (K : ℝ) : Int3 ℕ :=
  { sp := exSp, st := exSt, side := ![-1, 1, 1], K := K, majorana := false, mult := 1, kind := .ffVac,
    neglect := false, min1 := 0, max1 := 1, max2 := 1, lb := 0, ub := 1, creationFast := false, br := none,
    num := 0, total := fun _ => 0 }

/-- The declared decay of the charged pion into a muon, with the masses of the templates. -/
example (c : LibConst) : ∃ d ∈ decayChargedPion (tmplAttr 1 1) c .pi .muon .nuMu, ∃ K,
    Decays (tmplAttr 1 1) .pi .muon .nuMu d.amp (exInt K) exP [[1], [0]] := by
  refine ⟨_, List.mem_cons_self .., _, ⟨rfl, ?_, ?_, ?_, ?_, ⟨rfl, rfl, rfl⟩, rfl, rfl, rfl, rfl, one_pos, one_pos, ?_, ?_, ?_,
    ?_, ?_, ⟨[1], rfl, by simp⟩, ?_⟩⟩
  · norm_num [exInt, exSp, tmplAttr, Tmpl.mass]
  · norm_num [exInt, exSp, tmplAttr, Tmpl.mass]
  · simp [exInt, exSp, tmplAttr, Tmpl.mass, show (2 : Fin 3) ≠ 0 by decide, show (2 : Fin 3) ≠ 1 by decide]
  · change [1, 0].Perm [0, 1]; decide
  · norm_num [tmplAttr, Tmpl.mass]
  · norm_num [tmplAttr, Tmpl.mass]
  · norm_num [tmplAttr, Tmpl.mass]
  · norm_num [tmplAttr, Tmpl.mass]
  · intro k
    refine readable_toC _ _ _ one_pos [1] rfl (by change [(0 : ℝ), 1].Pairwise (· < ·); simp) ?_
    by_cases h : k = 0 <;> simp [exInt, exSt, exSp, h]
  · simp [exInt, exSt, exSp]

theorem tmpl_names : Function.Injective Tmpl.name := by
  intro x y h
  cases x <;> cases y <;> first | rfl | (exact absurd h (by decide))

private noncomputable def exSp4 : Fin 4 → Species := fun i =>
  { name := "X", mass := if i = 0 then 10 else 0, dof := 4, fermion := true, thermalDyn := false, Q := 0,
    grid := [0, 1], fastDecay := false, lifetime := 0 }
private noncomputable def exSt4 : Fin 4 → PState ℕ := fun i =>
  { T := 1, aT := 1, Tdec := 0, dist := if i = 0 then [1/2, 1/4] else [0, 0], coll := [], integrals := [],
    tDec := 0, decayed := false, density := 0, histDist := [], histColl := [], histT := [], histDensity := [] }
private noncomputable def exInt4 (K : ℝ) : Int4 ℕ :=
  { sp := exSp4, st := exSt4, side := ![-1, 1, 1, 1], Ms := [⟨![0, 1, 2, 3], K, 0, 0⟩],
    GF := 1/3, majorana := false, mult := 1, kind := .full, neglect := false, min1 := 0, max1 := 1, min2 := 0,
    max2 := 1, max3 := 1, ub := 1, creationFast := false, br := none, num := 0, total := fun _ => 0 }

/-- A generated decay `N → ν ν ν` of a heavy neutrino of 10 MeV. -/
example (K : ℝ) : Decays3 (tmplAttr 1 10) .sterile ⟨.sterile, [⟨-1, .sterile, false, 0, false⟩, ⟨1, .nuE, true, 1, true⟩,
    ⟨1, .nuMu, false, 2, false⟩, ⟨1, .nuE, false, 3, false⟩], [⟨K, 0, 0, ⟨0, 1, 2, 3⟩⟩]⟩ (exInt4 K) exP [[1], [0]] := by
  have hcut : gridCut4 [(0 : ℝ), 1] 1 = ([0, 1], []) := by
    norm_num [gridCut4, searchsortedLeft, pySliceTo, pySliceFrom, pyZeros]
  have hb : Function.Bijective (![0, 1, 2, 3] : Fin 4 → Fin 4) := by
    rw [Fintype.bijective_iff_injective_and_card]; exact ⟨by decide, rfl⟩
  refine ⟨⟨rfl, rfl⟩, rfl, by simp [exInt4], by simp [exInt4], by simpa [exInt4] using hb, ?_, ?_, ?_, rfl, fun k hk => by
      change (![-1, 1, 1, 1] : Fin 4 → ℤ) k = 1; revert hk; revert k; decide, rfl,
    rfl, rfl, by norm_num [exInt4], one_pos, one_pos, rfl, by simp [exInt4, exSp4, inEq], ⟨[1], rfl⟩,
    by change [(0 : ℝ), 1].Pairwise (· < ·); simp, by simp [exInt4, exSt4, exSp4], ?_⟩
  · norm_num [exInt4, exSp4, tmplAttr, Tmpl.mass]
  · norm_num [tmplAttr, Tmpl.mass]
  · change ValidSchedule (gridCut4 [(0 : ℝ), 1] 1).1.length _
    rw [hcut]; change [1, 0].Perm [0, 1]; decide
  · intro i hi
    exact ⟨by simp [exInt4, exSp4, hi], by simp [exInt4, exSp4, inEq], ⟨[1], rfl⟩,
      by change [(0 : ℝ), 1].Pairwise (· < ·); simp, by simp [exInt4, exSt4, exSp4, hi], by simp [exInt4, exSt4, hi]⟩

/-- A heavy neutrino of 10 MeV and the neutrinos and leptons of the library. -/
example : HeavyOk (tmplAttr 1 10) .sterile [.nuE, .nuMu, .nuTau] [.electron, .muon, .tau] := by
  refine ⟨tmpl_names, by norm_num [tmplAttr, Tmpl.mass], by decide, by decide, by decide, ?_⟩
  intro a ha
  fin_cases ha <;> norm_num [tmplAttr, Tmpl.mass]

/-- The muon of the library. -/
example (c : LibConst) : ∃ out, (leptonsCC c Tmpl.nuMu .nuE .muon .electron).integrals (tmplAttr 1 10) = .ok out ∧
    fermiWidth (strength .muon out) ((tmplAttr 1 10).mass .muon) (dofFactor false 4) =
      c.GF ^ 2 * (tmplAttr 1 10).mass .muon ^ 5 / (192 * Real.pi ^ 3) :=
  C101_muon _ c tmpl_names _ _ _ _ (by decide) (by decide) (by decide) (by norm_num [tmplAttr, Tmpl.mass])

/-- Charged rho, muon mixed, the last neutrino not. -/
example (c : LibConst) : ∀ d ∈ sterileChargedMesons (tmplAttr 1 1000) c (fun f => if f = "muon" then 1 else 0) .sterile .nuTau
    [.muon] [.rho], d.amp = .three 0 :=
  (C101_charged_vector_refuted _ c _ _ _ _ _ .muon .rho (by simp) (by simp) rfl rfl (by simp [tmplAttr, Tmpl.flavour])).2
    (by simp [tmplAttr, Tmpl.flavour]) (by intro y hy; rw [List.mem_singleton.mp hy]; rfl)
end Example

end PyBBN
