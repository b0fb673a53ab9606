import Verif.Props.Integrators
/-!
# Positive linear quadratures

What the physics needs of `integrate_1D`: linear in the integrand and monotone on the interval.
`gaussian` with non-negative weights and nodes in `[-1,1]` is one.
-/
namespace PyBBN

/-- A linear, monotone one-dimensional quadrature. -/
structure PosQuad (Q : (ℝ → ℝ) → ℝ → ℝ → ℝ) : Prop where
  linear : ∀ (f g : ℝ → ℝ) (c d a b : ℝ),
    Q (fun x => c * f x + d * g x) a b = c * Q f a b + d * Q g a b
  mono : ∀ (f g : ℝ → ℝ) (a b : ℝ), a ≤ b → (∀ x, a ≤ x → x ≤ b → f x ≤ g x) → Q f a b ≤ Q g a b

namespace PosQuad
variable {Q : (ℝ → ℝ) → ℝ → ℝ → ℝ} (h : PosQuad Q)
include h

theorem smul (f : ℝ → ℝ) (c a b : ℝ) : Q (fun x => c * f x) a b = c * Q f a b := by
  have := h.linear f f c 0 a b
  simpa using this

theorem nonneg (f : ℝ → ℝ) (a b : ℝ) (hab : a ≤ b) (hf : ∀ x, a ≤ x → x ≤ b → 0 ≤ f x) :
    0 ≤ Q f a b := by
  have h0 := h.smul f 0 a b
  have := h.mono (fun x => 0 * f x) f a b hab (by simpa using hf)
  rw [h0] at this
  simpa using this

theorem congr (f g : ℝ → ℝ) (a b : ℝ) (hab : a ≤ b) (hfg : ∀ x, a ≤ x → x ≤ b → f x = g x) :
    Q f a b = Q g a b :=
  le_antisymm (h.mono f g a b hab fun x h1 h2 => (hfg x h1 h2).le)
    (h.mono g f a b hab fun x h1 h2 => (hfg x h1 h2).ge)

end PosQuad

/-- `integrate_1D` in fixed order mode is such a quadrature. -/
theorem gaussian_posQuad (rule : Rule) (hw : ∀ xw ∈ rule, 0 ≤ xw.2 ∧ -1 ≤ xw.1 ∧ xw.1 ≤ 1) :
    PosQuad (gaussian rule) :=
  ⟨fun f g c d a b => C19_linear rule f g c d a b,
   fun f g a b hab hfg => C19_monotone rule f g a b hab hw hfg⟩

end PyBBN
