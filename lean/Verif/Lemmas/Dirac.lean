import Verif.Props.MatrixElements
import Mathlib.LinearAlgebra.Matrix.Trace
import Mathlib.LinearAlgebra.Matrix.ConjTranspose
import Mathlib.LinearAlgebra.Matrix.Notation
import Mathlib.Data.Complex.Basic
import Mathlib.Analysis.Complex.Basic
import Mathlib.Tactic.FinCases
/-!
# Squared amplitudes of the Fermi theory

Specification side of C108: Dirac matrices, spin sums, and the sum over spins of the square of a current-current amplitude.
Nothing here refers to the code.
-/
namespace PyBBN

open Matrix Complex

/-- Dirac matrices (4 × 4, complex). -/
abbrev DMat := Matrix (Fin 4) (Fin 4) ℂ

/-- The matrices `γ^μ` in the chiral representation. -/
noncomputable def gam : Fin 4 → DMat :=
  ![!![0, 0, 1, 0; 0, 0, 0, 1; 1, 0, 0, 0; 0, 1, 0, 0],
    !![0, 0, 0, 1; 0, 0, 1, 0; 0, -1, 0, 0; -1, 0, 0, 0],
    !![0, 0, 0, -I; 0, 0, I, 0; 0, I, 0, 0; -I, 0, 0, 0],
    !![0, 0, 1, 0; 0, 0, 0, -1; -1, 0, 0, 0; 0, 1, 0, 0]]

/-- `γ⁵`. -/
noncomputable def gam5 : DMat := !![-1, 0, 0, 0; 0, -1, 0, 0; 0, 0, 1, 0; 0, 0, 0, 1]

/-- Diagonal of the metric. -/
def met (μ : Fin 4) : ℂ := if μ = 0 then 1 else -1

theorem one4 : (1 : DMat) = !![1, 0, 0, 0; 0, 1, 0, 0; 0, 0, 1, 0; 0, 0, 0, 1] := by
  ext i j; fin_cases i <;> fin_cases j <;> rfl

theorem zero4 : (0 : DMat) = !![0, 0, 0, 0; 0, 0, 0, 0; 0, 0, 0, 0; 0, 0, 0, 0] := by
  ext i j; fin_cases i <;> fin_cases j <;> rfl

/-- They satisfy the Clifford relations. -/
theorem gam_clifford (μ ν : Fin 4) : gam μ * gam ν + gam ν * gam μ = if μ = ν then (2 * met μ) • 1 else 0 := by
  rw [one4, zero4]
  fin_cases μ <;> fin_cases ν <;> simp [gam, met] <;> norm_num

theorem gam5_eq : gam5 = I • (gam 0 * gam 1 * gam 2 * gam 3) := by
  simp [gam, gam5]

/-- `p̸ = γ^μ p_μ`. -/
noncomputable def slash (p : Fin 4 → ℝ) : DMat := ∑ μ, (met μ * (p μ : ℂ)) • gam μ

/-- Dirac conjugate `γ⁰ M† γ⁰`. -/
noncomputable def dbar (M : DMat) : DMat := gam 0 * Mᴴ * gam 0

/-- Vertex `γ^μ (g_L (1 - γ⁵) + g_R (1 + γ⁵))`. -/
noncomputable def vertex (gL gR : ℝ) (μ : Fin 4) : DMat := gam μ * ((gL : ℂ) • (1 - gam5) + (gR : ℂ) • (1 + gam5))

/-- A particle or antiparticle of given momentum and mass. -/
structure Leg where
  anti : Bool
  p : Fin 4 → ℝ
  m : ℝ

/-- Sum over spins of `u ū = p̸ + m`, or of `v v̄ = p̸ - m` for an antiparticle. -/
noncomputable def spinSum (l : Leg) : DMat := slash l.p + ((if l.anti then -l.m else l.m : ℝ) : ℂ) • 1

/-- Sum over spins of the square of `(G_F / √2) [X̄ Γ^μ Y] [Z̄ Γ'_μ W]`, `Γ` with couplings `a, b` and `Γ'` with couplings
`c, d` to left- and right-handed fermions.  `Y` and `W` are incoming particles or outgoing antiparticles, `X` and `Z` outgoing
particles or incoming antiparticles. -/
noncomputable def fermiSq (GF a b c d : ℝ) (X Y Z W : Leg) : ℂ :=
  (GF : ℂ) ^ 2 / 2 * ∑ μ, ∑ ν, met μ * met ν * (spinSum X * vertex a b μ * spinSum Y * dbar (vertex a b ν)).trace *
    (spinSum Z * vertex c d μ * spinSum W * dbar (vertex c d ν)).trace

/-! ## Evaluation of the traces -/

/-- `x̸ + m` written out. -/
noncomputable def dmat (m : ℂ) (x : Fin 4 → ℂ) : DMat :=
  !![m, 0, x 0 - x 3, -x 1 + I * x 2; 0, m, -x 1 - I * x 2, x 0 + x 3;
    x 0 + x 3, x 1 - I * x 2, m, 0; x 1 + I * x 2, x 0 - x 3, 0, m]

/-- The vertices written out. -/
noncomputable def vmat (a b : ℂ) : Fin 4 → DMat :=
  ![!![0, 0, 2 * b, 0; 0, 0, 0, 2 * b; 2 * a, 0, 0, 0; 0, 2 * a, 0, 0],
    !![0, 0, 0, 2 * b; 0, 0, 2 * b, 0; 0, -(2 * a), 0, 0; -(2 * a), 0, 0, 0],
    !![0, 0, 0, -(2 * b * I); 0, 0, 2 * b * I, 0; 0, 2 * a * I, 0, 0; -(2 * a * I), 0, 0, 0],
    !![0, 0, 2 * b, 0; 0, 0, 0, -(2 * b); -(2 * a), 0, 0, 0; 0, 2 * a, 0, 0]]

theorem vertex_eq (a b : ℝ) (μ : Fin 4) : vertex a b μ = vmat a b μ := by
  unfold vertex
  rw [one4]
  fin_cases μ <;> ext i j <;> fin_cases i <;> fin_cases j <;> simp [gam, gam5, vmat] <;> ring

theorem vertex_dbar (a b : ℝ) (μ : Fin 4) : dbar (vertex a b μ) = vertex a b μ := by
  unfold dbar
  rw [vertex_eq]
  ext i j
  simp only [Matrix.mul_apply, Fin.sum_univ_four, Matrix.conjTranspose_apply]
  fin_cases μ <;> fin_cases i <;> fin_cases j <;> simp [gam, vmat]

theorem spinSum_eq (l : Leg) : spinSum l = dmat ((if l.anti then -l.m else l.m : ℝ) : ℂ) fun μ => (l.p μ : ℂ) := by
  unfold spinSum slash
  rw [Fin.sum_univ_four, one4]
  generalize ((if l.anti then -l.m else l.m : ℝ) : ℂ) = m
  ext i j; fin_cases i <;> fin_cases j <;> simp [gam, met, dmat] <;> ring

/-- Product of complex four-vectors. -/
def cdot (x y : Fin 4 → ℂ) : ℂ := x 0 * y 0 - x 1 * y 1 - x 2 * y 2 - x 3 * y 3

def symT (x y : Fin 4 → ℂ) (μ ν : Fin 4) : ℂ := x μ * y ν + x ν * y μ - if μ = ν then met μ * cdot x y else 0

def epsT (x y : Fin 4 → ℂ) : Fin 4 → Fin 4 → ℂ :=
  ![![0, x 3 * y 2 - x 2 * y 3, x 1 * y 3 - x 3 * y 1, x 2 * y 1 - x 1 * y 2],
    ![x 2 * y 3 - x 3 * y 2, 0, x 0 * y 3 - x 3 * y 0, x 2 * y 0 - x 0 * y 2],
    ![x 3 * y 1 - x 1 * y 3, x 3 * y 0 - x 0 * y 3, 0, x 0 * y 1 - x 1 * y 0],
    ![x 1 * y 2 - x 2 * y 1, x 0 * y 2 - x 2 * y 0, x 1 * y 0 - x 0 * y 1, 0]]

theorem trace_vertex (m n a b : ℂ) (x y : Fin 4 → ℂ) (μ ν : Fin 4) :
    (dmat m x * vmat a b μ * dmat n y * vmat a b ν).trace =
      8 * ((a ^ 2 + b ^ 2) * symT x y μ ν + (a ^ 2 - b ^ 2) * I * epsT x y μ ν +
        2 * a * b * m * n * if μ = ν then met μ else 0) := by
  fin_cases μ <;> fin_cases ν <;>
    simp [dmat, vmat, symT, epsT, met, cdot, Matrix.trace, Fin.sum_univ_four] <;> ring_nf <;> simp only [I_sq, I_pow_four] <;> ring

theorem contract (x y z w : Fin 4 → ℂ) :
    (∑ μ, ∑ ν, met μ * met ν * symT x y μ ν * symT z w μ ν = 2 * (cdot x z * cdot y w + cdot x w * cdot y z)) ∧
    (∑ μ, ∑ ν, met μ * met ν * epsT x y μ ν * epsT z w μ ν = -2 * (cdot x z * cdot y w - cdot x w * cdot y z)) ∧
    (∑ μ, ∑ ν, met μ * met ν * symT x y μ ν * epsT z w μ ν = 0) ∧
    (∑ μ, ∑ ν, met μ * met ν * epsT x y μ ν * symT z w μ ν = 0) ∧
    (∑ μ, ∑ ν, met μ * met ν * symT x y μ ν * (if μ = ν then met μ else 0) = -2 * cdot x y) ∧
    (∑ μ, ∑ ν, met μ * met ν * (if μ = ν then met μ else 0) * symT x y μ ν = -2 * cdot x y) ∧
    (∑ μ, ∑ ν, met μ * met ν * epsT x y μ ν * (if μ = ν then met μ else 0) = 0) ∧
    (∑ μ, ∑ ν, met μ * met ν * (if μ = ν then met μ else 0) * epsT x y μ ν = 0) ∧
    (∑ μ : Fin 4, ∑ ν : Fin 4, met μ * met ν * (if μ = ν then met μ else 0) * (if μ = ν then met μ else 0) = 4) := by
  refine ⟨?_, ?_, ?_, ?_, ?_, ?_, ?_, ?_, ?_⟩ <;>
    simp [Fin.sum_univ_four, symT, epsT, met, cdot] <;> ring

/-- The sum over spins of the square of the current-current amplitude. -/
theorem fermiSq_eq (GF a b c d : ℝ) (X Y Z W : Leg) :
    fermiSq GF a b c d X Y Z W = ((128 * GF ^ 2 *
      ((a ^ 2 * c ^ 2 + b ^ 2 * d ^ 2) * mink X.p Z.p * mink Y.p W.p + (a ^ 2 * d ^ 2 + b ^ 2 * c ^ 2) * mink X.p W.p * mink Y.p Z.p
        - (a ^ 2 + b ^ 2) * (c * d) * ((if Z.anti then -Z.m else Z.m) * (if W.anti then -W.m else W.m)) * mink X.p Y.p
        - a * b * (c ^ 2 + d ^ 2) * ((if X.anti then -X.m else X.m) * (if Y.anti then -Y.m else Y.m)) * mink Z.p W.p
        + 4 * (a * b) * (c * d) * ((if X.anti then -X.m else X.m) * (if Y.anti then -Y.m else Y.m)) *
          ((if Z.anti then -Z.m else Z.m) * (if W.anti then -W.m else W.m))) : ℝ) : ℂ) := by
  unfold fermiSq
  simp only [vertex_dbar]
  simp only [vertex_eq, spinSum_eq]
  generalize (if X.anti then -X.m else X.m : ℝ) = mx
  generalize (if Y.anti then -Y.m else Y.m : ℝ) = my
  generalize (if Z.anti then -Z.m else Z.m : ℝ) = mz
  generalize (if W.anti then -W.m else W.m : ℝ) = mw
  simp only [trace_vertex]
  set x : Fin 4 → ℂ := fun μ => (X.p μ : ℂ) with hx
  set y : Fin 4 → ℂ := fun μ => (Y.p μ : ℂ) with hy
  set z : Fin 4 → ℂ := fun μ => (Z.p μ : ℂ) with hz
  set w : Fin 4 → ℂ := fun μ => (W.p μ : ℂ) with hw
  obtain ⟨c1, c2, c3, c4, c5, c6, c7, c8, c9⟩ := contract x y z w
  obtain ⟨-, -, -, -, -, d6, -, d8, -⟩ := contract z w x y
  have key : ∑ μ, ∑ ν, met μ * met ν * (8 * (((a : ℂ) ^ 2 + b ^ 2) * symT x y μ ν + ((a : ℂ) ^ 2 - b ^ 2) * I * epsT x y μ ν +
        2 * a * b * mx * my * if μ = ν then met μ else 0)) *
      (8 * (((c : ℂ) ^ 2 + d ^ 2) * symT z w μ ν + ((c : ℂ) ^ 2 - d ^ 2) * I * epsT z w μ ν +
        2 * c * d * mz * mw * if μ = ν then met μ else 0)) =
      64 * (((a : ℂ) ^ 2 + b ^ 2) * ((c : ℂ) ^ 2 + d ^ 2) * (∑ μ, ∑ ν, met μ * met ν * symT x y μ ν * symT z w μ ν)
        + ((a : ℂ) ^ 2 + b ^ 2) * (((c : ℂ) ^ 2 - d ^ 2) * I) * (∑ μ, ∑ ν, met μ * met ν * symT x y μ ν * epsT z w μ ν)
        + ((a : ℂ) ^ 2 + b ^ 2) * (2 * c * d * mz * mw) *
            (∑ μ, ∑ ν, met μ * met ν * symT x y μ ν * (if μ = ν then met μ else 0))
        + ((a : ℂ) ^ 2 - b ^ 2) * I * ((c : ℂ) ^ 2 + d ^ 2) * (∑ μ, ∑ ν, met μ * met ν * epsT x y μ ν * symT z w μ ν)
        + ((a : ℂ) ^ 2 - b ^ 2) * I * (((c : ℂ) ^ 2 - d ^ 2) * I) * (∑ μ, ∑ ν, met μ * met ν * epsT x y μ ν * epsT z w μ ν)
        + ((a : ℂ) ^ 2 - b ^ 2) * I * (2 * c * d * mz * mw) *
            (∑ μ, ∑ ν, met μ * met ν * epsT x y μ ν * (if μ = ν then met μ else 0))
        + (2 * a * b * mx * my) * ((c : ℂ) ^ 2 + d ^ 2) *
            (∑ μ, ∑ ν, met μ * met ν * (if μ = ν then met μ else 0) * symT z w μ ν)
        + (2 * a * b * mx * my) * (((c : ℂ) ^ 2 - d ^ 2) * I) *
            (∑ μ, ∑ ν, met μ * met ν * (if μ = ν then met μ else 0) * epsT z w μ ν)
        + (2 * a * b * mx * my) * (2 * c * d * mz * mw) * (∑ μ : Fin 4, ∑ ν : Fin 4, met μ * met ν *
            (if μ = ν then met μ else 0) * (if μ = ν then met μ else 0))) := by
    simp only [Finset.mul_sum, ← Finset.sum_add_distrib]
    refine Finset.sum_congr rfl fun μ _ => Finset.sum_congr rfl fun ν _ => ?_
    ring
  rw [key, c1, c2, c3, c4, c5, c7, c9, d6, d8]
  have em : ∀ p q : Fin 4 → ℝ, cdot (fun μ => (p μ : ℂ)) (fun μ => (q μ : ℂ)) = ((mink p q : ℝ) : ℂ) := by
    intro p q; unfold cdot mink; push_cast; ring
  rw [hx, hy, hz, hw]
  simp only [em]
  push_cast
  linear_combination (-((GF : ℂ) ^ 2 / 2 * 64 * 2) * ((a : ℂ) ^ 2 - b ^ 2) * ((c : ℂ) ^ 2 - d ^ 2) *
    (mink X.p Z.p * mink Y.p W.p - mink X.p W.p * mink Y.p Z.p)) * I_sq

/-! ## Spinors -/

/-- `ū Γ y` with `ū = u† γ⁰`. -/
noncomputable def bil (u : Fin 4 → ℂ) (Γ : DMat) (y : Fin 4 → ℂ) : ℂ := star u ⬝ᵥ (gam 0 * Γ) *ᵥ y

/-- The amplitude `(G_F / √2) [x̄ Γ^μ y] [z̄ Γ'_μ w]`. -/
noncomputable def fermiAmp (GF a b c d : ℝ) (x y z w : Fin 4 → ℂ) : ℂ :=
  (GF : ℂ) / (Real.sqrt 2 : ℝ) * ∑ μ, met μ * bil x (vertex a b μ) y * bil z (vertex c d μ) w

/-- A complete set of spinors of a leg: `Σ u ū` is the spin sum. -/
def SpinComplete {σ : Type*} [Fintype σ] (l : Leg) (u : σ → Fin 4 → ℂ) : Prop :=
  (∑ s, vecMulVec (u s) (star (u s))) * gam 0 = spinSum l

theorem gam0_sq : gam 0 * gam 0 = 1 := by
  rw [one4]; simp [gam]

theorem gam0_herm : (gam 0)ᴴ = gam 0 := by
  ext i j
  rw [Matrix.conjTranspose_apply]
  fin_cases i <;> fin_cases j <;> simp [gam]

theorem bil_conj (u y : Fin 4 → ℂ) (Γ : DMat) : (starRingEnd ℂ) (bil u Γ y) = bil y (dbar Γ) u := by
  have e : gam 0 * dbar Γ = (gam 0 * Γ)ᴴ := by
    unfold dbar
    rw [conjTranspose_mul, gam0_herm, ← Matrix.mul_assoc, ← Matrix.mul_assoc, gam0_sq, Matrix.one_mul]
  unfold bil
  rw [e, starRingEnd_apply, star_dotProduct, star_mulVec, ← dotProduct_mulVec, star_star]

theorem sum_bil {σ τ : Type*} [Fintype σ] [Fintype τ] (u : σ → Fin 4 → ℂ) (y : τ → Fin 4 → ℂ) (M N : DMat) :
    ∑ s, ∑ t, bil (u s) M (y t) * bil (y t) N (u s) =
      ((∑ s, vecMulVec (u s) (star (u s))) * gam 0 * M * ((∑ t, vecMulVec (y t) (star (y t))) * gam 0) * N).trace := by
  have one : ∀ a b : Fin 4 → ℂ, bil a M b * bil b N a =
      (vecMulVec a (star a) * gam 0 * M * (vecMulVec b (star b) * gam 0) * N).trace := by
    intro a b
    unfold bil
    rw [Matrix.mul_assoc (vecMulVec a (star a)), vecMulVec_mul, ← Matrix.mul_assoc, vecMulVec_mul_vecMulVec, vecMulVec_smul,
      Matrix.mul_assoc _ (gam 0) N, Matrix.smul_mul, vecMulVec_mul, trace_smul, trace_vecMulVec, smul_eq_mul, dotProduct_mulVec,
      dotProduct_mulVec, dotProduct_comm a]
  simp only [one]
  simp only [Matrix.sum_mul, Matrix.mul_sum, Matrix.trace_sum]
  exact Finset.sum_comm

/-- **Sum over spins.** `fermiSq` is the sum of the squared amplitudes over complete sets of spinors of the four legs. -/
theorem fermiSq_spins {σ τ υ φ : Type*} [Fintype σ] [Fintype τ] [Fintype υ] [Fintype φ] (GF a b c d : ℝ) (X Y Z W : Leg)
    (x : σ → Fin 4 → ℂ) (y : τ → Fin 4 → ℂ) (z : υ → Fin 4 → ℂ) (w : φ → Fin 4 → ℂ)
    (hx : SpinComplete X x) (hy : SpinComplete Y y) (hz : SpinComplete Z z) (hw : SpinComplete W w) :
    ((∑ s, ∑ t, ∑ r, ∑ q, Complex.normSq (fermiAmp GF a b c d (x s) (y t) (z r) (w q)) : ℝ) : ℂ) =
      fermiSq GF a b c d X Y Z W := by
  have metc : ∀ μ, (starRingEnd ℂ) (met μ) = met μ := by intro μ; unfold met; split_ifs <;> simp
  have one : ∀ s t r q, ((Complex.normSq (fermiAmp GF a b c d (x s) (y t) (z r) (w q)) : ℝ) : ℂ) =
      (GF : ℂ) ^ 2 / 2 * ∑ μ, ∑ ν, met μ * met ν * (bil (x s) (vertex a b μ) (y t) * bil (y t) (dbar (vertex a b ν)) (x s)) *
        (bil (z r) (vertex c d μ) (w q) * bil (w q) (dbar (vertex c d ν)) (z r)) := by
    intro s t r q
    rw [← Complex.mul_conj]
    unfold fermiAmp
    rw [map_mul, map_sum, map_div₀, Complex.conj_ofReal, Complex.conj_ofReal]
    have e2 : ((Real.sqrt 2 : ℝ) : ℂ) * (Real.sqrt 2 : ℝ) = 2 := by
      rw [← Complex.ofReal_mul, Real.mul_self_sqrt (by norm_num)]; norm_num
    have h0 : ((Real.sqrt 2 : ℝ) : ℂ) ≠ 0 := by
      intro h; rw [h, zero_mul] at e2; norm_num at e2
    have split : ∀ P Q : ℂ, (GF : ℂ) / (Real.sqrt 2 : ℝ) * P * ((GF : ℂ) / (Real.sqrt 2 : ℝ) * Q) = (GF : ℂ) ^ 2 / 2 * (P * Q) := by
      intro P Q
      rw [← e2]; field_simp
    rw [split, Finset.sum_mul_sum]
    congr 1
    refine Finset.sum_congr rfl fun μ _ => Finset.sum_congr rfl fun ν _ => ?_
    rw [map_mul, map_mul, metc, bil_conj, bil_conj]
    ring
  push_cast
  simp only [one]
  unfold fermiSq
  simp only [← Finset.mul_sum]
  congr 1
  have sx : ∀ μ ν, ∑ s, ∑ t, bil (x s) (vertex a b μ) (y t) * bil (y t) (dbar (vertex a b ν)) (x s) =
      (spinSum X * vertex a b μ * spinSum Y * dbar (vertex a b ν)).trace := by
    intro μ ν; rw [sum_bil, hx, hy]
  have sz : ∀ μ ν, ∑ r, ∑ q, bil (z r) (vertex c d μ) (w q) * bil (w q) (dbar (vertex c d ν)) (z r) =
      (spinSum Z * vertex c d μ * spinSum W * dbar (vertex c d ν)).trace := by
    intro μ ν; rw [sum_bil, hz, hw]
  simp only [← sx, ← sz]
  have swap : ∀ f : σ → τ → υ → φ → Fin 4 → Fin 4 → ℂ, ∑ s, ∑ t, ∑ r, ∑ q, ∑ μ, ∑ ν, f s t r q μ ν =
      ∑ μ, ∑ ν, ∑ s, ∑ t, ∑ r, ∑ q, f s t r q μ ν := by
    intro f
    have e1 : ∑ s, ∑ t, ∑ r, ∑ q, ∑ μ, ∑ ν, f s t r q μ ν =
        ∑ k : σ × τ × υ × φ, ∑ n : Fin 4 × Fin 4, f k.1 k.2.1 k.2.2.1 k.2.2.2 n.1 n.2 := by
      simp only [Fintype.sum_prod_type]
    have e2 : ∑ μ, ∑ ν, ∑ s, ∑ t, ∑ r, ∑ q, f s t r q μ ν =
        ∑ n : Fin 4 × Fin 4, ∑ k : σ × τ × υ × φ, f k.1 k.2.1 k.2.2.1 k.2.2.2 n.1 n.2 := by
      simp only [Fintype.sum_prod_type]
    rw [e1, e2, Finset.sum_comm]
  rw [swap]
  refine Finset.sum_congr rfl fun μ _ => Finset.sum_congr rfl fun ν _ => ?_
  rw [mul_assoc, Finset.sum_mul, Finset.mul_sum]
  refine Finset.sum_congr rfl fun s _ => ?_
  rw [Finset.sum_mul, Finset.mul_sum]
  refine Finset.sum_congr rfl fun t _ => ?_
  rw [Finset.mul_sum, Finset.mul_sum]
  refine Finset.sum_congr rfl fun r _ => ?_
  rw [Finset.mul_sum, Finset.mul_sum]
  refine Finset.sum_congr rfl fun q _ => ?_
  ring

theorem spin_herm (m : ℝ) (p : Fin 4 → ℝ) : (dmat m (fun μ => (p μ : ℂ)) * gam 0)ᴴ = dmat m (fun μ => (p μ : ℂ)) * gam 0 := by
  have e : dmat m (fun μ => (p μ : ℂ)) * gam 0 = !![(p 0 - p 3 : ℂ), -p 1 + I * p 2, m, 0; -p 1 - I * p 2, p 0 + p 3, 0, m;
      m, 0, p 0 + p 3, p 1 - I * p 2; 0, m, p 1 + I * p 2, p 0 - p 3] := by
    simp [dmat, gam]
  rw [e]
  ext i j
  rw [Matrix.conjTranspose_apply]
  fin_cases i <;> fin_cases j <;> simp <;> ring

theorem spin_square (m : ℂ) (x : Fin 4 → ℂ) (h : cdot x x = m ^ 2) :
    dmat m x * gam 0 * (dmat m x * gam 0) = (2 * x 0) • (dmat m x * gam 0) := by
  have e : dmat m x * gam 0 = !![x 0 - x 3, -x 1 + I * x 2, m, 0; -x 1 - I * x 2, x 0 + x 3, 0, m;
      m, 0, x 0 + x 3, x 1 - I * x 2; 0, m, x 1 + I * x 2, x 0 - x 3] := by
    simp [dmat, gam]
  rw [e]
  unfold cdot at h
  ext i j
  fin_cases i <;> fin_cases j <;> simp <;>
    first
    | ring1
    | linear_combination -h - (x 2) ^ 2 * I_sq

/-- Legs on the mass shell have complete sets of spinors. -/
theorem complete_exists (l : Leg) (h0 : 0 < l.p 0) (hs : mink l.p l.p = l.m ^ 2) : ∃ u : Fin 4 → Fin 4 → ℂ, SpinComplete l u := by
  set m : ℝ := if l.anti then -l.m else l.m with hm
  have hm2 : m ^ 2 = l.m ^ 2 := by rw [hm]; split_ifs <;> ring
  set H : DMat := dmat m (fun μ => (l.p μ : ℂ)) * gam 0 with hH
  have hsq : H * H = (2 * (l.p 0 : ℂ)) • H := by
    refine spin_square m (fun μ => (l.p μ : ℂ)) ?_
    rw [← Complex.ofReal_pow, hm2, ← hs]
    unfold cdot mink; push_cast; ring
  have hherm : Hᴴ = H := spin_herm m l.p
  set k : ℂ := (((Real.sqrt (2 * l.p 0))⁻¹ : ℝ) : ℂ) with hk
  have hk2 : k * (starRingEnd ℂ) k * (2 * (l.p 0 : ℂ)) = 1 := by
    rw [hk, Complex.conj_ofReal, ← Complex.ofReal_mul, ← mul_inv, Real.mul_self_sqrt (by linarith)]
    push_cast
    have : (l.p 0 : ℂ) ≠ 0 := by exact_mod_cast h0.ne'
    field_simp
  refine ⟨fun j i => k * H i j, ?_⟩
  unfold SpinComplete
  have e : ∑ s : Fin 4, vecMulVec (fun i => k * H i s) (star fun i => k * H i s) = H := by
    have : H * Hᴴ = (2 * (l.p 0 : ℂ)) • H := by rw [hherm, hsq]
    ext i j
    have h1 := congrFun (congrFun this i) j
    rw [Matrix.mul_apply, Matrix.smul_apply, smul_eq_mul] at h1
    simp only [Matrix.conjTranspose_apply] at h1
    rw [Matrix.sum_apply]
    simp only [vecMulVec_apply, Pi.star_apply, star_mul']
    have h2 : ∑ s, k * H i s * (star k * star (H j s)) = k * star k * ∑ s, H i s * star (H j s) := by
      rw [Finset.mul_sum]; refine Finset.sum_congr rfl fun s _ => by ring
    rw [starRingEnd_apply] at hk2
    rw [h2, h1]
    linear_combination (H i j) * hk2
  rw [e, hH, Matrix.mul_assoc, gam0_sq, Matrix.mul_one, spinSum_eq]

/-- At rest: two spins. -/
example : SpinComplete ⟨false, ![1, 0, 0, 0], 1⟩ ![![1, 0, 1, 0], ![0, 1, 0, 1]] := by
  unfold SpinComplete
  rw [spinSum_eq, Fin.sum_univ_two]
  ext i j
  simp only [Matrix.mul_apply, Fin.sum_univ_four, Matrix.add_apply, vecMulVec_apply]
  fin_cases i <;> fin_cases j <;> simp [dmat, gam]

/-! ## Crossing and identical particles -/

/-- Exchange of an incoming particle and an outgoing antiparticle. -/
def Leg.cross (l : Leg) : Leg := ⟨!l.anti, -l.p, l.m⟩

theorem spinSum_cross (l : Leg) : spinSum l.cross = -spinSum l := by
  rw [spinSum_eq, spinSum_eq]
  unfold Leg.cross
  ext i j
  cases l.anti <;> fin_cases i <;> fin_cases j <;> simp [dmat] <;> ring

/-- Rearrangement of two left-handed currents. -/
theorem fierz (a c : ℝ) (x y z w : Fin 4 → ℂ) :
    ∑ μ, met μ * bil x (vertex a 0 μ) y * bil z (vertex c 0 μ) w = -∑ μ, met μ * bil z (vertex a 0 μ) y * bil x (vertex c 0 μ) w := by
  simp [vertex_eq, Fin.sum_univ_four, bil, vmat, gam, met, Matrix.mulVec, dotProduct]
  ring_nf
  simp only [I_sq]
  ring

/-- Identical particles in the final state: half the sum over spins of the square of the difference of the direct and the
exchanged amplitude is twice the square of one of them. -/
theorem identical (GF a c : ℝ) (x y z w : Fin 4 → ℂ) :
    Complex.normSq (fermiAmp GF a 0 c 0 x y z w - fermiAmp GF a 0 c 0 z y x w) / 2 =
      2 * Complex.normSq (fermiAmp GF a 0 c 0 x y z w) := by
  have : fermiAmp GF a 0 c 0 z y x w = -fermiAmp GF a 0 c 0 x y z w := by
    unfold fermiAmp
    rw [fierz a c z y x w]
    ring
  rw [this, sub_neg_eq_add, ← two_mul, Complex.normSq_mul]
  norm_num [Complex.normSq_apply]
  ring

end PyBBN
