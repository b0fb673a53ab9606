import Verif.Props.DynArray
import Verif.Props.Environment
import Verif.Props.Utils
import Verif.Props.Interpolation
import Verif.Props.Integrators
import Verif.Props.Grids
import Verif.Props.Params
import Verif.Props.Evolution
import Verif.Props.Process
import Verif.Props.Statistics
import Verif.Props.Particle
import Verif.Props.Oscillations
import Verif.Props.DFunctions
import Verif.Props.DLimits
import Verif.Props.Amplitude
import Verif.Props.Annihilation
import Verif.Lemmas.Convergence
import Verif.Props.Convergence
import Verif.Props.NeffEnd
import Verif.Model.Table
import Verif.Props.Table
import Verif.Props.Collision
import Verif.Props.CutOff
import Verif.Props.Schedule
import Verif.Props.Limits
import Verif.Props.Kinematics
import Verif.Props.Crossing
import Verif.Props.MatrixElements
import Verif.Props.Dedup
import Verif.Props.Selection
import Verif.Props.FastDecay
import Verif.Props.QCD
import Verif.Props.Kawano
import Verif.Props.Thermo
import Verif.Props.Master
import Verif.Props.Planck
import Verif.Props.Entropy
import Verif.Props.Units
import Verif.Props.Universe
import Verif.Props.History
import Verif.Props.ParticleInit
import Verif.Props.MatterAngle
import Verif.Props.Integrand
import Verif.Props.DecayRate
import Verif.Props.Exchange
import Verif.Props.Normalisation
import Verif.Props.FermiRate
import Verif.Props.Balance
import Verif.Props.BalanceStep
import Verif.Props.Resample
import Verif.Props.GridParams
import Verif.Props.Skip
import Verif.Model.Library
import Verif.Model.Templates
import Verif.Props.Library
import Verif.Props.Owners
import Verif.Props.Chains
import Verif.Props.Secondary
import Verif.Model.SterileFilters
import Verif.Props.Strength
import Verif.Props.SterileWidths
import Verif.Props.Terms
import Verif.Props.TermsLib
import Verif.Props.TermsTotal
import Verif.Props.TermsSM
import Verif.Props.Declared
import Verif.Props.Widths
import Verif.Lemmas.Phase4
import Verif.Props.Balance4
import Verif.Props.Balance4Step
import Verif.Lemmas.PhaseScat
import Verif.Props.BalanceScat
import Verif.Props.BalanceScatStep
import Verif.Props.EntropyDecay
import Verif.Props.EntropyStep
import Verif.Lemmas.Events
import Verif.Lemmas.CrossAmp
import Verif.Model.Handover
import Verif.Lemmas.CrossAmpSM
import Verif.Lemmas.CrossFamily
import Verif.Lemmas.CrossKern
import Verif.Props.TotalsSM
import Verif.Lemmas.Dirac
import Verif.Props.Fermi
import Verif.Props.FermiDeclared
import Verif.Props.FermiEvents
import Verif.Lemmas.Angles
import Verif.Lemmas.EventKernel
import Verif.Lemmas.EventsLaw
import Verif.Props.SecondLaw
import Verif.Lemmas.DecayLegs
import Verif.Lemmas.SameKernel
import Verif.Lemmas.DecayLaw
import Verif.Lemmas.DecayFamily
import Verif.Lemmas.DecayRuns
import Verif.Props.DecaysSM
import Verif.Model.SumRules
import Verif.Props.SumRules
import Verif.Lemmas.LoopRelation
import Verif.Props.Relaxation
import Verif.Lemmas.Dalitz
import Verif.Lemmas.OneMass
import Verif.Props.RestWidth
import Verif.Lemmas.Boost
import Verif.Props.MovingWidth
import Verif.Props.OneMassWidth
import Verif.Model.Cache
import Verif.Props.Cache
import Verif.Props.KineticLimit
import Verif.Props.Resume
import Verif.Lemmas.Invariants
import Verif.Lemmas.Polygons
import Verif.Props.OnlyThermal
import Verif.Props.Freshly
import Verif.Props.FreshlyTwo
import Verif.Model.NeutronConst
import Verif.Props.Neutron
import Verif.Lemmas.HalfGamma
import Verif.Props.Regimes
import Verif.Props.RegimesCut
import Verif.Props.Decouple
import Verif.Model.Cross3
import Verif.Props.Cross3
import Verif.Props.CrossTotals
import Verif.Model.KawanoFile
import Verif.Props.KawanoFile
import Verif.Model.Orthopoly
import Verif.Lemmas.Orthopoly
import Verif.Lemmas.Jacobi
import Verif.Props.Orthopoly
import Verif.Props.Jacobi
import Verif.Lemmas.Scale3
import Verif.Props.Normalisation3
import Verif.Props.RestLimit
import Verif.Props.Continuity
import Verif.Props.RestProduct
import Verif.Model.Chebyshev
import Verif.Props.Chebyshev
import Verif.Props.Instances
import Verif.Model.SampledQuad
import Verif.Props.SampledQuad
import Verif.Model.MesonElements
import Verif.Props.EnergyUnit
import Verif.Model.FastKinds
import Verif.Props.FastKinds
