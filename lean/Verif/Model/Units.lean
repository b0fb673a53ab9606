import Verif.Model.Thermo
import Verif.Model.Evolution
/-!
# Units and constants: common/__init__.py 14–79

`CONST` is a class body: its members are computed once, at import, from the units valid then.
-/
namespace PyBBN

/-- The attributes of `UNITS` (14–36). -/
structure Units where
  eV : ℝ
  keV : ℝ
  MeV : ℝ
  GeV : ℝ
  TeV : ℝ
  s : ℝ
  kg : ℝ
  m : ℝ
  N : ℝ
  K9 : ℝ
  g_cm3 : ℝ

/-- `UNITS.reset_units` (23–36), as a function of `UNITS.eV`. -/
noncomputable def Units.reset (eV : ℝ) : Units :=
  let keV := eV * 1e3
  let MeV := keV * 1e3
  let GeV := MeV * 1e3
  let TeV := GeV * 1e3
  { eV := eV, keV := keV, MeV := MeV, GeV := GeV, TeV := TeV
    s := 1e22 / 6.582119 / MeV
    kg := 1e27 / 1.782662 * GeV
    m := 1e15 / 1.239842 / GeV
    N := 1e-5 / 8.19 * GeV ^ 2
    K9 := MeV / 11.6045
    g_cm3 := MeV ^ 4 / 2.32011575e5 }

/-- `UNITS.eV` (21) with `use_numericalunits = False`. -/
noncomputable def defaultEV : ℝ := 1e-9

/-- The attributes of `CONST` that carry a dimension or are used by the modelled code (41–79). -/
structure PConst where
  M_p : ℝ
  G : ℝ
  G_F : ℝ
  H : ℝ
  sin2 : ℝ
  g_R : ℝ
  g_L : ℝ
  f_K : ℝ
  lambda_QCD : ℝ
  M_W : ℝ
  dm12 : ℝ
  dm13 : ℝ
  rateNorm : ℝ
  MSW : ℝ

/-- The body of `CONST` (41–79). -/
noncomputable def PConst.of (u : Units) : PConst :=
  let M_p := 1.2209 * 1e22 * u.MeV
  let G_F := 1.166 * 1e-5 / u.GeV ^ 2
  let M_W := 80.379 * u.GeV
  { M_p := M_p
    G := 1 / M_p ^ 2
    G_F := G_F
    H := 1 / (4.55e17 * u.s)
    sin2 := 0.2312
    g_R := 0.2312
    g_L := 0.2312 + 0.5
    f_K := 155.6 * u.MeV
    lambda_QCD := 150 * u.MeV
    M_W := M_W
    dm12 := 7.37e-5 * u.eV ^ 2
    dm13 := 2.56e-3 * u.eV ^ 2
    rateNorm := 17.5426 / u.MeV ^ 5
    MSW := 16 * 1.2021 * √2 * G_F / Real.pi / M_W ^ 2 }

/-- What `Params` uses of them. -/
noncomputable def Consts.ofUnits (u : Units) : Consts := ⟨u.MeV, (PConst.of u).M_p⟩

end PyBBN
