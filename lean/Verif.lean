import Verif.Props.Numerics
import Verif.Props.Labelling
import Verif.Props.Search
import Verif.Props.Super
import Verif.Props.ArrowSuper
import Verif.Props.Polya
import Verif.Props.Lattice
import Verif.Props.SNF
import Verif.Props.Concs
import Verif.Props.Cell
import Verif.Props.Perms
import Verif.Props.Decorate
import Verif.Props.Closure
import Verif.Props.Distribution
import Verif.Props.PointGroup
import Verif.Props.SpaceGroup
import Verif.Props.Elements
import Verif.Props.Reduce
import Verif.Props.RealSpace
import Verif.Props.EnumIn
import Verif.Props.PolyaOut
import Verif.Props.PolyaFloat
import Verif.Props.EnumOut
import Verif.Props.Labeling
import Verif.Props.Poscar
import Verif.Props.Sample
import Verif.Props.EnumSys
import Verif.Props.EnumSingle
import Verif.Props.EnumSuper
import Verif.Model.MakeStr
import Verif.Proof.MakeStr
import Verif.Props.MakeStr
import Verif.Props.MakePoscar
import Verif.Model.SymGroup
import Verif.Proof.SymGroup
import Verif.Props.SymGroup
import Verif.Props.Surface
import Verif.Props.SymCubic
import Verif.Model.LatticeIn
import Verif.Model.Drivers
import Verif.Spec.Derivative
import Verif.Proof.NoRepeats
import Verif.Proof.Derivative
import Verif.Props.Derivative
import Verif.Props.Enumeration
import Verif.Spec.EnumRow
import Verif.Proof.Drivers
import Verif.Proof.EnumRow
import Verif.Proof.GroupOrder
import Verif.Proof.EnumRun
import Verif.Proof.Small
import Verif.Proof.SupOrder
import Verif.Props.GroupOrder
import Verif.Props.LatticeIn
import Verif.Props.Program
import Verif.Props.ProgramInput
import Verif.Props.Steps
import Verif.Props.StepsFail
import Verif.Props.ProgramExamples
import Verif.Proof.Periods
import Verif.Props.ProgramPrimitive
import Verif.Props.ProgramPoscar
import Verif.Proof.Tolerance
import Verif.Props.Tolerance
import Verif.Proof.ReduceFull
import Verif.Proof.Corner
import Verif.Proof.ReduceExit
import Verif.Props.ReduceExit
import Verif.Props.GaussLimit
import Verif.Proof.ReduceInt
import Verif.Proof.CubicInt
import Verif.Props.CubicReduce
import Verif.Model.Visualize
import Verif.Props.Visualize
import Verif.Props.Filter
import Verif.Props.ReadGroup
import Verif.Props.Extras
import Verif.Proof.Double
import Verif.Props.ConcsFloat
import Verif.Spec.Double
import Verif.Model.CellFloat
import Verif.Proof.CellFloat
import Verif.Props.CellFloat
import Verif.Model.RealSpaceFloat
import Verif.Proof.RealSpaceFloat
import Verif.Proof.RealSpaceFloat35
import Verif.Props.RealSpaceFloat
import Verif.Model.DecorateFloat
import Verif.Props.DecorateFloat
import Verif.Model.Noise
import Verif.Proof.Noise
import Verif.Proof.NoisePg
import Verif.Proof.NoiseSg
import Verif.Proof.NoiseLat
import Verif.Proof.NoiseSym
import Verif.Props.Noise
import Verif.Props.NoiseHex
import Verif.Model.DriversFloat
import Verif.Proof.ConcsSorted
import Verif.Proof.FloatParts
import Verif.Proof.ProgramFloat
import Verif.Props.ProgramFloat
import Verif.Proof.ProgramSome
import Verif.Props.ProgramSome
import Verif.Model.StructuresFloat
import Verif.Proof.DistributeFloat
import Verif.Props.DistributionFloat
import Verif.Props.ProgramSomeFloat
import Verif.Props.Degeneracy
import Verif.Proof.ContentsScale
import Verif.Props.ProgramRanges
import Verif.Props.PoscarNames
import Verif.Model.Screen
import Verif.Props.Screen
import Verif.Props.Messages
import Verif.Props.ProgramSelect
import Verif.Model.Crash
import Verif.Props.Crash
import Verif.Props.CrashRerun
import Verif.Model.PoscarText
import Verif.Props.PoscarText
import Verif.Props.PoscarTitle
import Verif.Props.MakeNames
import Verif.Props.MakeDir
import Verif.Props.MakeConfig
import Verif.Props.ProgramConfig
import Verif.Props.ProgramDisk
import Verif.Props.WholeSpecies
import Verif.Props.ProgramArrows
import Verif.Props.ProgramPart
import Verif.Model.CommandLine
import Verif.Proof.CommandLine
import Verif.Props.CommandLine
import Verif.Props.CommandLineExamples
import Verif.Model.StructEnum
import Verif.Props.StructEnum
import Verif.Props.StructRead
import Verif.Props.Session
import Verif.Props.MovedExample
import Verif.Model.EnumSysFile
import Verif.Props.GroupFile
import Verif.Model.SequenceCount
import Verif.Props.Sequences
import Verif.Props.AcceptRate
import Verif.Props.AcceptArrows
import Verif.Props.AcceptProgram
import Verif.Model.Warnings
import Verif.Props.Warnings
import Verif.Props.Headings
