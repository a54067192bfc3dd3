import Verif.Model.Registry
import Verif.Lemmas.Registry
import Verif.Props.Registry
import Verif.Model.Tree
import Verif.Lemmas.Tree
import Verif.Lemmas.TreeAll
import Verif.Lemmas.TreeSave
import Verif.Props.Tree
import Verif.Model.Composite
import Verif.Lemmas.Composite
import Verif.Props.Composite
import Verif.Model.Bisection
import Verif.Props.Bisection
import Verif.Model.Cramer
import Verif.Props.Cramer
import Verif.Model.Interp
import Verif.Lemmas.Interp
import Verif.Props.Interp
import Verif.Model.ElementTables
import Verif.Model.Elements
import Verif.Lemmas.Elements
import Verif.Props.Elements
import Verif.Model.Density
import Verif.Props.Density
import Verif.Model.ScreeningLength
import Verif.Model.Setup
import Verif.Lemmas.Setup
import Verif.Props.Setup
import Verif.Props.Convolution
import Verif.Model.Instrument
import Verif.Props.Instrument
import Verif.Model.Response
import Verif.Props.Response
import Verif.Model.Mermin
import Verif.Props.Mermin
import Verif.Lemmas.Lindhard
import Verif.Lemmas.Spectral
import Verif.Props.Spectral
import Verif.Model.Fermi
import Verif.Props.Fermi
import Verif.Model.Bound
import Verif.Lemmas.Laplace
import Verif.Props.FormFactors
import Verif.Props.Compton
import Verif.Model.Ipd
import Verif.Props.Ipd
import Verif.Model.Saha
import Verif.Props.Saha
import Verif.Props.Ionization
import Verif.Model.StaticSf
import Verif.Props.StaticSf
import Verif.Props.Screening
import Verif.Props.ScreeningLength
import Verif.Props.Rayleigh
import Verif.Props.HardSphere
import Verif.Props.DebyeWaller
import Verif.Model.Hnc
import Verif.Props.SineTransform
import Verif.Props.Hnc
import Verif.Props.HncSolution
import Verif.Props.HncSpecies
import Verif.Model.Itcf
import Verif.Props.Itcf
import Verif.Props.ItcfGrid
import Verif.Props.Secant
import Verif.Model.Potential
import Verif.Props.PlasmaScales
import Verif.Props.Potential
import Verif.Props.PotentialLimits
import Verif.Model.HncFeat
import Verif.Props.HncFeat
import Verif.Props.Splitting
import Verif.Model.Citation
import Verif.Props.Citation
import Verif.Props.ItcfSetup
import Verif.Props.StateQuantities
import Verif.Props.Compton5
import Verif.Model.FermiInt
import Verif.Lemmas.RatPoly
import Verif.Lemmas.FermiSeries
import Verif.Lemmas.FermiCert
import Verif.Lemmas.FermiDeriv
import Verif.Props.FermiInt
import Verif.Props.FermiMono
import Verif.Props.FermiInverse
import Verif.Model.Dandrea
import Verif.Lemmas.FermiExact
import Verif.Props.ElectronScreening
import Verif.Props.Dandrea
import Verif.Props.DandreaPole
import Verif.Model.Fft
import Verif.Lemmas.Fft
import Verif.Props.Fft
import Verif.Model.Ogata
import Verif.Props.Ogata
import Verif.Model.SahaLoop
import Verif.Props.SahaLoop
import Verif.Model.ZeroK
import Verif.Props.ZeroK
import Verif.Model.Kkt
import Verif.Props.Kkt
import Verif.Model.Cutoff
import Verif.Props.Cutoff
import Verif.Model.PairDist
import Verif.Props.PairDist
import Verif.Model.Dornheim
import Verif.Props.Dornheim
import Verif.Model.PauliMap
import Verif.Props.PauliMap
import Verif.Model.SiiNN
import Verif.Props.SiiNN
import Verif.Model.Collections
import Verif.Props.Collections
import Verif.Lemmas.FermiPoles
import Verif.Lemmas.FermiTail
import Verif.Lemmas.FermiCells
import Verif.Lemmas.FermiNeg12
import Verif.Props.FermiAll
import Verif.Lemmas.HardSphere
import Verif.Props.HardSphereStab
import Verif.Props.BoundMore
import Verif.Model.FitRk
import Verif.Lemmas.FitRk
import Verif.Props.FitRk
import Verif.Model.BmSii
import Verif.Props.BmSii
import Verif.Model.IpdStates
import Verif.Props.IpdStates
import Verif.Model.FreeFree
import Verif.Props.FreeFree
import Verif.Model.Spectrum
import Verif.Props.Spectrum
import Verif.Model.BoundFree
import Verif.Props.BoundFree
import Verif.Model.Encode
import Verif.Lemmas.Encode
import Verif.Props.Encode
import Verif.Props.HncSplit
import Verif.Model.Nist
import Verif.Props.Nist
import Verif.Model.Units
import Verif.Props.Units
import Verif.Props.BornFit
import Verif.Lemmas.FermiGrid
import Verif.Lemmas.FermiGridValue
import Verif.Lemmas.FermiGridNode
import Verif.Lemmas.FermiGridCell
import Verif.Lemmas.FermiGridRun
import Verif.Props.InverseAll
import Verif.Props.DandreaAll
import Verif.Props.InverseAntia
import Verif.Model.DbWavelength
import Verif.Props.DbWavelength
import Verif.Lemmas.DampLimit
import Verif.Props.DampLimit
import Verif.Lemmas.HighFreq
import Verif.Props.FSum
import Verif.Lemmas.Contour
import Verif.Props.FSumInteract
import Verif.Props.LongWave
import Verif.Props.StaticElectrons
import Verif.Props.SecantConvex
import Verif.Props.HncConverge
import Verif.Props.HncConvergeT
import Verif.Props.HncConvergeSplit
import Verif.Props.HncLowDensity
import Verif.Props.BisectionMono
import Verif.Props.SahaConverge
import Verif.Props.SahaMixture
import Verif.Props.SahaSphere
import Verif.Props.SahaStewart
import Verif.Props.SahaFamily
import Verif.Props.SahaIchimaru
