import Verif.Model.Cdt
import Verif.Model.F64
import Verif.Model.Loader
import Verif.Spec.Input
import Verif.Spec.Polygon
import Verif.Proofs.Basic
import Verif.Proofs.Attr
import Verif.Proofs.View
import Verif.Proofs.Mesh
import Verif.Proofs.Flip
import Verif.Proofs.Geom
import Verif.Proofs.Mono
import Verif.Proofs.Evolve
import Verif.Proofs.Flood
import Verif.Proofs.Build
import Verif.Props.Flags
import Verif.Props.Determinism
import Verif.Props.Defects
import Verif.Props.Adjacency
import Verif.Props.Predicates
import Verif.Props.Iter
import Verif.Props.Builder
import Verif.Spec.Protocol
import Verif.Proofs.Order
import Verif.Proofs.Run
import Verif.Proofs.Protocol
import Verif.Proofs.Bbox
import Verif.Props.Events
import Verif.Props.Result
import Verif.Props.Sentinels
import Verif.Spec.FileFormat
import Verif.Props.FileLoader
import Verif.Proofs.FrontOps
import Verif.Props.FrontCache
import Verif.Model.Front
import Verif.Model.Num
import Verif.Model.Points
import Verif.Model.Shape
import Verif.Model.Store
import Verif.Model.Sweep
import Verif.Proofs.Attach
import Verif.Proofs.EdgeEv
import Verif.Proofs.EdgeFill
import Verif.Proofs.EdgeFlip
import Verif.Proofs.Fill
import Verif.Proofs.FillOne
import Verif.Proofs.Final
import Verif.Proofs.FineInput
import Verif.Proofs.FlipInv
import Verif.Proofs.FrontInv
import Verif.Proofs.Inv
import Verif.Proofs.Legalize
import Verif.Proofs.MeshSpec
import Verif.Proofs.Pids
import Verif.Proofs.PointEv
import Verif.Proofs.Reflag
import Verif.Proofs.RunInv
import Verif.Proofs.SweepInv
import Verif.Props.MeshProps
import Verif.Spec.Fine
import Verif.Spec.Mesh
import Verif.Props.Verify
import Verif.Props.Safety
import Verif.Spec.Safety
import Verif.Proofs.FlipSpec
import Verif.Props.Flip
import Verif.Spec.Flip
import Verif.Proofs.Boundary
import Verif.Proofs.Crossing
import Verif.Proofs.Perturb
import Verif.Proofs.PlaneMesh
import Verif.Props.Region
import Verif.Spec.Region
import Verif.Proofs.Potential
import Verif.Props.Termination
import Verif.Proofs.CyclicEdges
import Verif.Proofs.Flow
import Verif.Proofs.Jump
import Verif.Proofs.Stokes
import Verif.Proofs.Winding
import Verif.Proofs.Component
import Verif.Proofs.FrontPoint
import Verif.Proofs.Interior
import Verif.Proofs.Labels
import Verif.Proofs.PolyIds
import Verif.Props.Interior
import Verif.Spec.Interior
import Verif.Proofs.ScanChain
import Verif.Proofs.ScanGeom
import Verif.Proofs.Marks
import Verif.Proofs.ScanLevel
import Verif.Proofs.ScanMesh
import Verif.Proofs.MarkRun
import Verif.Proofs.ScanRun
import Verif.Props.Constraints
import Verif.Spec.General
import Verif.Proofs.FillClear
import Verif.Proofs.FrontLine
import Verif.Proofs.FillHalt
import Verif.Proofs.FlipHalt
import Verif.Proofs.Halt
import Verif.Proofs.RunHalt
import Verif.Props.Total
import Verif.Props.Dip
import Verif.Proofs.Fan
import Verif.Props.Correct
import Verif.Proofs.Euler
import Verif.Proofs.Jordan
import Verif.Proofs.LabelAt
import Verif.Proofs.Measure
import Verif.Proofs.Nested
import Verif.Props.Measure
import Verif.Spec.Measure
import Verif.Proofs.Diverge
import Verif.Props.Endless
import Verif.Proofs.Generic
import Verif.Proofs.Unique
import Verif.Proofs.Walk
import Verif.Props.Delaunay
import Verif.Props.Unique
import Verif.Spec.Delaunay
import Verif.Proofs.FloatInput
import Verif.Proofs.FloatSign
import Verif.Proofs.GridInput
import Verif.Proofs.Round
import Verif.Props.Float
import Verif.Spec.Float
import Verif.Proofs.Flat
import Verif.Props.Square
import Verif.Model.Library
import Verif.Proofs.FrontRun
import Verif.Props.Library
import Verif.Spec.Library
import Verif.Proofs.Similar
import Verif.Props.Similar
import Verif.Spec.Similar
import Verif.Model.Debug
import Verif.Proofs.Debug
import Verif.Proofs.DebugEdge
import Verif.Proofs.DebugFill
import Verif.Proofs.DebugFlip
import Verif.Proofs.DebugMark
import Verif.Proofs.DebugRun
import Verif.Props.Debug
import Verif.Spec.Debug
import Verif.Props.Leak
import Verif.Props.Observed
import Verif.Spec.Observed
import Verif.Proofs.Float32Input
import Verif.Proofs.Float32Sign
import Verif.Proofs.Grid32
import Verif.Props.Float32
import Verif.Spec.Float32
import Verif.Props.Outside
import Verif.Props.Steiner
import Verif.Spec.Steiner
import Verif.Proofs.LeftFront
import Verif.Proofs.LeftOpen
import Verif.Props.Leftmost
import Verif.Props.Repair
import Verif.Spec.Repair
import Verif.Props.Crossing
import Verif.Spec.Crossing
import Verif.Props.Loops
import Verif.Props.Anchored
import Verif.Proofs.TopEdge
import Verif.Props.Convex
import Verif.Props.Nesting
import Verif.Spec.Nesting
import Verif.Proofs.LeftOpen32
import Verif.Props.Left32
import Verif.Props.Used
import Verif.Spec.Used
import Verif.Model.File
import Verif.Proofs.Numeral
import Verif.Props.File
import Verif.Spec.Numeral
import Verif.Props.Bracket
import Verif.Spec.Bracket
import Verif.Proofs.Lift
import Verif.Props.NoReturn
import Verif.Spec.Lift
