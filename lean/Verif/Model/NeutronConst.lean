import Verif.Model.Kawano
import Verif.Model.Templates
/-!
# Constants of the weak rates

`MeV` is `UNITS.MeV`.
-/
namespace PyBBN

/-- `q` (kawano.py 18): neutron mass minus proton mass of library/SM.py 73, 82. -/
noncomputable def kawanoQ (MeV : ℝ) : ℝ := ((Tmpl.mass 0 .neutron : ℚ) : ℝ) * MeV - ((Tmpl.mass 0 .proton : ℚ) : ℝ) * MeV

/-- `m_e` (kawano.py 20): electron mass of library/SM.py 314. -/
noncomputable def kawanoMe (MeV : ℝ) : ℝ := ((Tmpl.mass 0 .electron : ℚ) : ℝ) * MeV

/-- `CONST.rate_normalization` (common/__init__.py 76). -/
noncomputable def rateNormalization (MeV : ℝ) : ℝ := 17.5426 / MeV ^ 5

end PyBBN
