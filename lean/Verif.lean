import Verif.Model.Stepper
import Verif.Lemmas.Stepper
import Verif.Lemmas.ShuOsher
import Verif.Props.Stepper
import Verif.Model.Basic
import Verif.Model.Util
import Verif.Lemmas.Util
import Verif.Props.Util
import Verif.Model.Adcirc
import Verif.Props.Adcirc
import Verif.Props.Fort14
import Verif.Model.MeshMeta
import Verif.Lemmas.MeshMeta
import Verif.Props.MeshMeta
import Verif.Model.Text
import Verif.Lemmas.Text
import Verif.Props.Text
import Verif.Model.Partition
import Verif.Lemmas.Partition
import Verif.Props.Partition
import Verif.Props.Dbmd
import Verif.Props.BuildPartition
import Verif.Props.Names
import Verif.Model.Csr
import Verif.Props.Csr
import Verif.Model.Comm
import Verif.Model.QuadMesh
import Verif.Model.Assemble
import Verif.Props.Comm
import Verif.Props.QuadMesh
import Verif.Props.QuadFile
import Verif.Props.Assemble
import Verif.Model.Geometry
import Verif.Props.Geometry
import Verif.Model.Basis
import Verif.Lemmas.Jacobi
import Verif.Props.Basis
import Verif.Props.Orthogonal
import Verif.Props.Dubiner
import Verif.Model.QuadTables
import Verif.Model.Quadrature
import Verif.Props.Quadrature
import Verif.Model.SweFlux
import Verif.Props.SweFlux
import Verif.Model.SweJacobian
import Verif.Model.SweWetDry
import Verif.Model.SweLimiter
import Verif.Model.SweSource
import Verif.Model.SweMeteo
import Verif.Props.SweJacobian
import Verif.Props.SweWetDry
import Verif.Props.SweLimiter
import Verif.Props.SweSource
import Verif.Props.SourceDeriv
import Verif.Props.SweMeteo
import Verif.Props.GaussTable
import Verif.Model.Element
import Verif.Model.CodeNumerics
import Verif.Model.SweStage
import Verif.Lemmas.Stage
import Verif.Lemmas.TriIntegral
import Verif.Props.SweMass
import Verif.Props.Water
import Verif.Lemmas.Green
import Verif.Lemmas.Approx
import Verif.Lemmas.RhsAt
import Verif.Props.LakeAtRest
import Verif.Props.LakeRun
import Verif.Model.SweParallel
import Verif.Lemmas.Partitioned
import Verif.Props.Parallel
import Verif.Model.Yaml
import Verif.Model.SweInputs
import Verif.Props.SweInputs
import Verif.Model.InputFile
import Verif.Props.InputFile
import Verif.Model.Bcis
import Verif.Props.Bcis
import Verif.Props.WeakForm
import Verif.Props.FreeStream
import Verif.Model.Ehdg
import Verif.Props.Ehdg
import Verif.Props.EhdgRun
import Verif.Model.Edge
import Verif.Model.EhdgTrace
import Verif.Props.Edge
import Verif.Props.EhdgTrace
import Verif.Model.Condense
import Verif.Lemmas.Condense
import Verif.Props.Condense
import Verif.Model.Ihdg
import Verif.Lemmas.Ihdg
import Verif.Props.MeanDeriv
import Verif.Props.IhdgNewton
import Verif.Props.IhdgOpen
import Verif.Props.IhdgForcing
import Verif.Lemmas.IhdgLinear
import Verif.Props.IhdgWater
import Verif.Props.IhdgSteady
import Verif.Props.IhdgRest
import Verif.Props.IhdgExists
import Verif.Model.GnCondense
import Verif.Lemmas.GnCondense
import Verif.Props.GnCondense
import Verif.Model.GnSource
import Verif.Props.GnSource
import Verif.Model.GnDeriv
import Verif.Lemmas.PolySpan
import Verif.Lemmas.GnDeriv
import Verif.Props.GnDeriv
import Verif.Props.GnPoly
import Verif.Model.Gn
import Verif.Lemmas.GnForm
import Verif.Lemmas.GnRows
import Verif.Props.GnWeak
import Verif.Props.GnConsistent
import Verif.Props.GnConsistentCase
import Verif.Props.GnRegular
import Verif.Props.GnEnergy
import Verif.Props.GnStep
import Verif.Props.GnFlat
import Verif.Props.GnFlatCase
import Verif.Model.GnParallel
import Verif.Lemmas.GnParallel
import Verif.Props.GnParallel
import Verif.Model.GnRanks
import Verif.Lemmas.GnRanks
import Verif.Props.GnParallelRegular
import Verif.Props.GnRanks
import Verif.Props.GnRanksCase
import Verif.Model.EhdgParallel
import Verif.Props.EhdgParallel
import Verif.Model.GnRun
import Verif.Props.GnRun
import Verif.Props.GnRunCase
import Verif.Model.CondenseP
import Verif.Lemmas.CondenseP
import Verif.Props.CondenseP
import Verif.Model.IhdgParallel
import Verif.Lemmas.IhdgParallel
import Verif.Props.CondenseRegular
import Verif.Props.IhdgParallel
import Verif.Props.IhdgEnergy
import Verif.Props.IhdgEnergyCase
import Verif.Props.IhdgParallelCase
import Verif.Model.GnGrad
import Verif.Lemmas.GnGrad
import Verif.Props.GnGrad
import Verif.Props.GnGradCase
import Verif.Model.GnGradRanks
import Verif.Lemmas.GnGradRanks
import Verif.Props.GnGradRanks
import Verif.Props.GnGradRanksCase
import Verif.Model.SweInit
import Verif.Props.SweInit
import Verif.Props.SweInitCase
import Verif.Model.SweProgram
import Verif.Props.SweProgram
import Verif.Props.SweProgramCase
import Verif.Props.Sphere
import Verif.Props.SphereCase
import Verif.Model.Output
import Verif.Props.Output
import Verif.Props.OutputCase
import Verif.Props.OutputModal
import Verif.Props.Order
import Verif.Props.Rotate
import Verif.Model.Residual
import Verif.Props.Residual
import Verif.Props.Balance
import Verif.Props.Units
import Verif.Props.LeveeMesh
import Verif.Props.Consistency
import Verif.Props.Local
import Verif.Props.LocalEhdg
import Verif.Props.EhdgFlow
import Verif.Props.EhdgBalance
import Verif.Props.EhdgOrder
import Verif.Model.Lifetime
import Verif.Props.Lifetime
import Verif.Model.Nan
import Verif.Props.Nan
import Verif.Props.EhdgRotate
import Verif.Model.Examples
import Verif.Props.Manufactured
import Verif.Props.Bowl
import Verif.Props.Solitary
import Verif.Model.Compare
import Verif.Props.Compare
import Verif.Model.Decimal
import Verif.Props.Decimal
import Verif.Model.Fort14Text
import Verif.Props.Fort14Text
import Verif.Props.Fort14Digits
import Verif.Model.Schedule
import Verif.Lemmas.Schedule
import Verif.Lemmas.ScheduleLock
import Verif.Lemmas.ScheduleText
import Verif.Props.Schedule
import Verif.Props.ScheduleText
import Verif.Props.ScheduleRun
import Verif.Model.SweUnit
import Verif.Lemmas.SweUnit
import Verif.Props.SweUnit
import Verif.Model.EhdgUnit
import Verif.Lemmas.EhdgUnit
import Verif.Props.EhdgUnit
import Verif.Props.ThreadRun
import Verif.Model.Rounds
import Verif.Lemmas.Rounds
import Verif.Props.Rounds
import Verif.Props.QuadRound
import Verif.Model.IhdgUnit
import Verif.Lemmas.IhdgUnit
import Verif.Props.IhdgUnit
import Verif.Props.IhdgUnitWater
import Verif.Model.GnSchedule
import Verif.Props.GnSchedule
import Verif.Model.GnMeet
import Verif.Props.GnMeet
import Verif.Model.IhdgSchedule
import Verif.Props.IhdgSchedule
