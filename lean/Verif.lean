import Verif.Props.Fzero
import Verif.Props.FzeroRound
import Verif.Props.InterpRound
import Verif.Props.Interp
import Verif.Props.PchipSlopes
import Verif.Props.Traj
import Verif.Props.VertSolve
import Verif.Props.Bfs
import Verif.Props.BfsWet
import Verif.Props.BfsPerim
import Verif.Props.Graph
import Verif.Props.Ntp
import Verif.Props.Lib
import Verif.Props.Grid
import Verif.Props.Xgcm
import Verif.Props.Xarray
import Verif.Props.Cache
import Verif.Props.Isopycnal
import Verif.Props.IsoFront
import Verif.Props.OmegaMat
import Verif.Props.Omega
import Verif.Props.OmegaML
import Verif.Props.OmegaFront
import Verif.Props.OmegaOpts
import Verif.Props.Label
import Verif.Props.LabelOrder
import Verif.Props.LabelRound
import Verif.Props.LabelStep
import Verif.Props.RoundSpec
import Verif.Props.PadTools
import Verif.Props.FloatLaws
import Verif.Props.Stability
import Verif.Props.MixedLayer
import Verif.Props.MixedLayerRound
import Verif.Props.TrajAccuracy
import Verif.Props.EosJmd95
import Verif.Props.EosJmdfwg06
import Verif.Props.EosEx
import Verif.Props.EosGsw
import Verif.Props.EosBox
import Verif.Props.EosTools
import Verif.Props.MakePP
import Verif.Props.Synthocean
import Verif.Props.Gufunc
import Verif.Props.CountFront
import Verif.Props.EosGswc
import Verif.Props.Flatten
import Verif.Props.SolveRound
import Verif.Props.SolveAccuracy
import Verif.Props.SynthGeometry
import Verif.Props.OmegaWet
import Verif.Props.EosRound
import Verif.Props.EosGswRound
import Verif.Props.EosLip
import Verif.Props.EosSolve
import Verif.Props.Order
import Verif.Props.StabilityRound
import Verif.Props.BfsWork
import Verif.Props.NtpRound
import Verif.Props.OmegaSym
import Verif.Props.OmegaTotal
import Verif.Props.OmegaRestart
import Verif.Props.OmegaGridSym
import Verif.Props.OmegaLinear
import Verif.Props.OmegaHelicity
import Verif.Props.OmegaConverge
import Verif.Props.OmegaEx
import Verif.Props.TrajIso
import Verif.Props.OmegaOptimal
import Verif.Props.OmegaStable
import Verif.Props.PerimNeutral
import Verif.Props.PerimRound
import Verif.Props.OmegaRound
import Verif.Props.OmegaRoundApi
import Verif.Props.OmegaErrors
import Verif.Props.RoundUnitsEx
import Verif.Props.SameCast
import Verif.Props.PadCast
import Verif.Props.SameApi
import Verif.Props.RefineCast
import Verif.Props.ExBfs
import Verif.Props.ExInterp
import Verif.Props.Flat
import Verif.Props.FlatOmega
import Verif.Props.FlatOmegaApi
import Verif.Props.DensityVolume
import Verif.Props.GridFits
import Verif.Props.NoCross
import Verif.Props.OmegaCollapse
import Verif.Props.OmegaSolver
import Verif.Props.OmegaApi
import Verif.Props.OmegaArgs
import Verif.Props.OmegaDiag
import Verif.Props.Units
import Verif.Props.UnitsSurf
import Verif.Props.UnitsOmega
import Verif.Props.UnitsLabel
import Verif.Props.UnitsRun
import Verif.Props.UnitsEx
import Verif.Props.OmegaLocal
import Verif.Props.OmegaLocalApi
import Verif.Props.OmegaOrder
import Verif.Props.PchipLip
import Verif.Props.Perturb
import Verif.Props.TrajResume
import Verif.Props.TripolarSym
import Verif.Props.StabilizeRetry
import Verif.Props.Boussinesq
import Verif.Props.Threads
import Verif.Props.OmegaThreads
import Verif.Props.ThreadsEx
import Verif.Props.GraphFcn
import Verif.Props.OmegaZero
import Verif.Props.InterpLocal
import Verif.Props.Window
import Verif.Props.LabelWindow
import Verif.Props.MixedLayerPchip
import Verif.Props.LabelRefine
import Verif.Props.TrajWindow
import Verif.Props.Deriv
import Verif.Props.Straight
import Verif.Props.Repin
import Verif.Props.Tiles
import Verif.Props.PinShift
import Verif.Props.OneTile
import Verif.Props.GraphRound
import Verif.Props.Blocks
import Verif.Props.LandLinks
import Verif.Props.LandRect
import Verif.Props.LandRows
import Verif.Props.LandSea
import Verif.Props.LandCrop
import Verif.Props.OmegaEmbed
import Verif.Props.LandMargin
import Verif.Props.LandBack
import Verif.Props.LandWindow
import Verif.Props.Separable
