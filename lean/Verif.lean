import Verif.Model.Py
import Verif.Model.Special
import Verif.Model.Autograd
import Verif.Model.Helper
import Verif.Model.Multishell
import Verif.Spec.Legendre
import Verif.Spec.Bessel
import Verif.Proofs.Seq
import Verif.Proofs.Legendre
import Verif.Proofs.Bessel
import Verif.Proofs.SeqBessel
import Verif.Proofs.LegendreInt
import Verif.Proofs.BesselSeries
import Verif.Proofs.Kernel
import Verif.Proofs.JLimit
import Verif.Props.Angular
import Verif.Props.Special
import Verif.Model.Pipeline
import Verif.Spec.Interface
import Verif.Proofs.Interface
import Verif.Proofs.Solver
import Verif.Proofs.Flux
import Verif.Proofs.Split
import Verif.Props.Invariance
import Verif.Spec.CoreShell
import Verif.Props.CoreShell
import Verif.Proofs.SolverLimit
import Verif.Proofs.Pipeline
import Verif.Proofs.SolverExample
import Verif.Props.Solver
import Verif.Proofs.NearField
import Verif.Props.NearField
import Verif.Spec.Field
import Verif.Proofs.Field
import Verif.Props.Field
import Verif.Props.Helper
import Verif.Model.Tensor
import Verif.Model.Batch
import Verif.Spec.Layout
import Verif.Proofs.Batch
import Verif.Proofs.Layout
import Verif.Proofs.BatchSolver
import Verif.Proofs.BatchObs
import Verif.Props.Batch
import Verif.Props.Legacy
import Verif.Model.Materials
import Verif.Model.Tables
import Verif.Model.Decimal
import Verif.Spec.Materials
import Verif.Props.Materials
import Verif.Props.Tables
import Verif.Model.Particle
import Verif.Props.Particle
import Verif.Props.Device
import Verif.Model.Tg
import Verif.Props.Tg
import Verif.Model.NearTorch
import Verif.Proofs.Fits
import Verif.Proofs.NearTorch
import Verif.Props.NearTorch
import Verif.Model.BatchTorch
import Verif.Proofs.BatchTorch
import Verif.Proofs.BatchDepth
import Verif.Proofs.SmallShape
import Verif.Props.BatchTorch
import Verif.Model.ParticleApi
import Verif.Proofs.Materials
import Verif.Proofs.EndToEnd
import Verif.Props.EndToEnd
import Verif.Model.LogDer
import Verif.Proofs.LogDer
import Verif.Props.LogDer
import Verif.Proofs.PlaneWave
import Verif.Props.PlaneWave
import Verif.Props.NearBatch
import Verif.Model.NearPena
import Verif.Proofs.NearPena
import Verif.Proofs.NearPenaFields
import Verif.Props.NearPena
import Verif.Model.Gpm
import Verif.Proofs.Gpm
import Verif.Props.Gpm
import Verif.Spec.Series
import Verif.Proofs.Decay
import Verif.Proofs.Solvable
import Verif.Props.Channel
import Verif.Props.Convergence
import Verif.Proofs.FarField
import Verif.Props.FarField
import Verif.Spec.Static
import Verif.Proofs.Rayleigh
import Verif.Proofs.Static
import Verif.Props.Rayleigh
import Verif.Model.GradCheck
import Verif.Proofs.CenterDiff
import Verif.Props.GradCheck
import Verif.Model.TgPatch
import Verif.Props.TgPatch
import Verif.Proofs.Smooth
import Verif.Props.Analytic
import Verif.Proofs.PowerFlow
import Verif.Props.PowerFlow
import Verif.Proofs.Poynting
import Verif.Props.Poynting
import Verif.Proofs.Geo
import Verif.Proofs.FieldSeries
import Verif.Proofs.SeriesField
import Verif.Proofs.ScatterField
import Verif.Proofs.Radiation
import Verif.Proofs.ScatterWaves
import Verif.Spec.Scattering
import Verif.Proofs.Scattering
import Verif.Props.Scattering
import Verif.Spec.Gradient
import Verif.Proofs.GradLimit
import Verif.Proofs.GradFam
import Verif.Props.GradLimit
import Verif.Model.Rounded
import Verif.Spec.Rounding
import Verif.Proofs.Rounded
import Verif.Proofs.RoundedLimit
import Verif.Proofs.RoundedCross
import Verif.Props.Rounded
import Verif.Model.Backward
import Verif.Proofs.Backward
import Verif.Proofs.BackwardOk
import Verif.Props.Backward
import Verif.Props.SinZero
import Verif.Model.BackwardShell
import Verif.Proofs.BackwardShell
import Verif.Proofs.BackwardShellRun
import Verif.Proofs.BackwardShellReal
import Verif.Props.BackwardShell
import Verif.Model.BackwardAngular
import Verif.Proofs.BackwardExact
import Verif.Props.BackwardAngular
import Verif.Model.BackwardNear
import Verif.Proofs.BackwardNear
import Verif.Props.BackwardNear
import Verif.Model.BackwardPenaNear
import Verif.Proofs.BackwardPenaNear
import Verif.Props.BackwardPenaNear
import Verif.Proofs.DepthError
import Verif.Proofs.DepthFar
import Verif.Proofs.DepthReal
import Verif.Proofs.OutgoingGrowth
import Verif.Proofs.DepthComplex
import Verif.Props.Depth
import Verif.Proofs.Modulus
import Verif.Proofs.Barrier
import Verif.Proofs.Evanescent
import Verif.Proofs.TailBound
import Verif.Proofs.TruncTable
import Verif.Proofs.Resonance
import Verif.Proofs.SmallClear
import Verif.Props.Truncation
import Verif.Props.Division
import Verif.Spec.Double
import Verif.Proofs.Double
import Verif.Model.RoundedVsh
import Verif.Props.Cancellation
import Verif.Proofs.CentreZeta
import Verif.Model.Range
import Verif.Props.Range
import Verif.Proofs.SmallZeta
import Verif.Model.Ieee
import Verif.Spec.Ieee
import Verif.Props.Ieee
import Verif.Proofs.Vanish
import Verif.Props.Vanish
import Verif.Spec.Conductor
import Verif.Proofs.Conductor
import Verif.Props.Conductor
import Verif.Props.TimeReversal
import Verif.Props.Sensitivity
import Verif.Props.SensitivityGrad
import Verif.Model.RoundedShell
import Verif.Spec.RoundingBessel
import Verif.Proofs.RoundedShell
import Verif.Props.RoundedShell
import Verif.Proofs.Phase
import Verif.Props.Phase
import Verif.Model.LegacyConfig
import Verif.Props.LegacyConfig
import Verif.Props.Mirror
import Verif.Props.Absorption
import Verif.Props.SpecialDer
import Verif.Props.IeeeValues
import Verif.Props.BackwardDisp
import Verif.Props.GraphReuse
import Verif.Props.GpmExtract
import Verif.Props.GpmStruct
import Verif.Props.WeakAbsorption
import Verif.Props.Euler
import Verif.Props.FullGradient
import Verif.Model.EffPola
import Verif.Props.EffPola
import Verif.Model.Tools
import Verif.Props.Tools
import Verif.Model.MatInit
import Verif.Props.MatInit
import Verif.Props.Passive
import Verif.Props.Spectrum
import Verif.Props.Sampling
import Verif.Props.DepthJump
