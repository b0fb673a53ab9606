import Verif.Model.Interactions
import Verif.Model.Collision
/-!
# From the generated matrix elements to those of the C++ code
-/
namespace PyBBN

/-- Position of a particle as the C++ code indexes the reaction. Orders of generated elements contain only `0, …, 3`. -/
def fin4 (n : ℕ) : Fin 4 := Fin.ofNat 4 n

/-- `M_t(list(M.order), M.K1 / unit, …)` (four_particle/__init__.py 162–163) before the division by `unit`, which is
`toCM`. -/
noncomputable def M4.toC (x : M4) : CM :=
  { order := ![fin4 x.order.a, fin4 x.order.b, fin4 x.order.c, fin4 x.order.d], K1 := x.K1, K2 := x.K2, K := x.K }

end PyBBN
