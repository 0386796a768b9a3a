import Verif.Basic
import Verif.Graph
import Verif.GraphLemmas
import Verif.GraphTopo
import Verif.GraphProps
import Verif.Dag
import Verif.DagLemmas
import Verif.DagProps
import Verif.Patch
import Verif.Instr
import Verif.InstrProps
import Verif.Lstk
import Verif.LstkProps
import Verif.Lli
import Verif.LliLemmas
import Verif.LliProps
import Verif.LliProgProps
import Verif.Gates
import Verif.Qasm
import Verif.QasmLemmas
import Verif.QasmProps
import Verif.QasmFileProps
import Verif.GatesProps
import Verif.Stream
import Verif.StreamLemmas
import Verif.StreamProps
import Verif.StreamLife
import Verif.StreamInject
import Verif.Wave
import Verif.Ambient
import Verif.WaveLemmas
import Verif.WaveSteps
import Verif.WaveStart
import Verif.WaveProps
import Verif.Pipeline
import Verif.PipelineStream
import Verif.PipelineDag
import Verif.PipelineProps
import Verif.Slice
import Verif.Apply
import Verif.SliceLemmas
import Verif.SliceIds
import Verif.SliceInv
import Verif.SlicePropsIds
import Verif.SliceSteady
import Verif.SliceCalm
import Verif.SliceProps
import Verif.BellLemmas
import Verif.BellRun
import Verif.BellProps
import Verif.RealEnv
import Verif.RealProps
import Verif.Search
import Verif.Router
import Verif.RouterSpec
import Verif.SearchLemmas
import Verif.RouterLemmas
import Verif.RouterRun
import Verif.RouterProps
import Verif.Layouts
import Verif.LayoutSpec
import Verif.LayoutLemmas
import Verif.LayoutRegions
import Verif.LayoutGen
import Verif.LayoutInit
import Verif.LayoutProps
import Verif.LayoutShape
import Verif.LayoutDense
import Verif.LayoutEdpc
import Verif.Stats
import Verif.StatsProps
import Verif.Quantum
import Verif.QuantumProps
import Verif.QuantumGates
import Verif.QuantumLocal
import Verif.QuantumChain
import Verif.QuantumPath
import Verif.QuantumEnds
import Verif.QuantumNet
import Verif.BellRoles
import Verif.QuantumRoute
import Verif.QuantumBell
import Verif.PipelineAmbient
import Verif.Reach
import Verif.ReachProps
import Verif.Play
import Verif.PlayProps
import Verif.Later
import Verif.LaterReal
import Verif.LaterProps
import Verif.Boost
import Verif.BoostLemmas
import Verif.BoostProps
import Verif.Ghost
import Verif.Marks
import Verif.Stay
import Verif.Keeps
import Verif.StayRun
import Verif.StayProps
import Verif.Json
import Verif.JsonText
import Verif.JsonLemmas
import Verif.JsonProps
import Verif.Sizes
import Verif.JsonRun
import Verif.StatsRun
import Verif.Home
import Verif.HomeProps
import Verif.Sliced
import Verif.SlicedProps
import Verif.Exposed
import Verif.ExposedProps
import Verif.Pandora
import Verif.PandoraProps
import Verif.Compiled
import Verif.CompiledProps
import Verif.Salvage
import Verif.SalvageLemmas
import Verif.SalvageKeeps
import Verif.Slicer
import Verif.SlicerLemmas
import Verif.SlicerProps
import Verif.SlicerRun
import Verif.SlicerExamples
import Verif.SlicerWhole
import Verif.SlicerReport
import Verif.SlicerWholeExamples
import Verif.SlicerCaught
import Verif.SlicerSafe
import Verif.Course
import Verif.CourseRun
import Verif.CourseProps
import Verif.CourseExamples
import Verif.Ends
import Verif.EndsLemmas
import Verif.EndsProps
import Verif.EndsHang
import Verif.EndsSlicer
import Verif.EndsForever
import Verif.EndsExamples
import Verif.EndsBell
import Verif.EndsCnot
import Verif.EndsLocal
import Verif.EndsLocalExamples
import Verif.Dot
import Verif.GateDagProps
import Verif.DotProps
import Verif.DotGraph
import Verif.SlicerPrints
import Verif.SlicerPrintsExamples
import Verif.Timed
import Verif.ClockLemmas
import Verif.ClockProps
import Verif.ClockSlicer
import Verif.ClockReserved
import Verif.GatePrint
import Verif.FromStrings
import Verif.FromStringsProps
import Verif.EdpcLemmas
import Verif.EdpcRun
import Verif.EdpcProps
import Verif.EdpcCross
import Verif.EdpcCrossProps
import Verif.LayoutJoined
import Verif.LayoutRoutes
import Verif.LayoutMeasure
import Verif.LayoutCondensed
