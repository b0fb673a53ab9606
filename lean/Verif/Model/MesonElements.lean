import Verif.Model.Templates
import Mathlib.Tactic
/-!
# The table of squared matrix elements of meson decays (library/SM.py 706–735)
-/
namespace PyBBN

/-- `matrix_elements` (SM.py 706–735); a missing key (`KeyError`, no caller uses one) gives 0. -/
noncomputable def mesonElements (MeV : ℝ) (key : String) : ℝ :=
  if key = "EtaThreePi0" then 0.0870984
  else if key = "EtaPiPlusPiMinPi0" then 0.0690629
  else if key = "EtaPiPlusPiMinGamma" then 0.0046653
  else if key = "OmegaPiPlusPiMinPi0" then 1145.69
  else if key = "EtaPrimePiPlusPiMinEta" then 43.888
  else if key = "EtaPrimeTwoPi0Eta" then 20.0986
  else if key = "KaonMinPi0ElecNue" then 1.42906e-13
  else if key = "KaonMinPiPlusTwoPiMin" then 1.85537e-12
  else if key = "KaonLPiPlusElecNue" then 2.80345e-13
  else if key = "KaonLPiPlusMuonNumu" then 3.03627e-13
  else if key = "KaonLThreePi0" then 1.05573e-12
  else if key = "KaonLPiPlusPiMinPi0" then 8.26989e-13
  else if key = "RhoPlusPiPlusPi0" then 1.8639e7 * MeV ^ 2
  else if key = "Rho0PiPlusPiMin" then 1.86839e7 * MeV ^ 2
  else if key = "OmegaPi0Gamma" then 85508.6 * MeV ^ 2
  else if key = "EtaPrimeRho0Gamma" then 8044.63 * MeV ^ 2
  else if key = "PhiKPlusKMin" then 1.28798e6 * MeV ^ 2
  else if key = "PhiK0LK0S" then 1.03471e6 * MeV ^ 2
  else if key = "PhiRho0Pi0" then 286706 * MeV ^ 2
  else if key = "EtaTwoGamma" then 14.2174 * MeV ^ 2
  else if key = "KaonMinMuonNumu" then 8.78918e-10 * MeV ^ 2
  else if key = "KaonMinPiMinPi0" then 3.28177e-10 * MeV ^ 2
  else if key = "KaonSTwoPi0" then 6.718e-8 * MeV ^ 2
  else if key = "KaonSPiPlusPiMin" then 1.53713e-7 * MeV ^ 2
  else 0

end PyBBN
