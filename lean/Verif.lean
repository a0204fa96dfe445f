import Verif.Model.Exact
import Verif.Model.Knn
import Verif.Model.CC
import Verif.Model.Driver
import Verif.Proofs.Basic
import Verif.Props.Status
import Verif.Props.Planes
import Verif.Props.Dnn
import Verif.Props.Args
import Verif.Proofs.XyzSet
import Verif.Proofs.Heap
import Verif.Props.Heap
import Verif.Proofs.Knn
import Verif.Proofs.KnnExact
import Verif.Props.Knn
import Verif.Proofs.Exact
import Verif.Props.XyzSet
import Verif.Spec.Surface
import Verif.Proofs.Loop
import Verif.Proofs.Boundary
import Verif.Props.Boundary
import Verif.Proofs.Surface
import Verif.Proofs.CC
import Verif.Proofs.CCLoop
import Verif.Props.Cell
import Verif.Proofs.Polytope
import Verif.Proofs.CellGeo
import Verif.Proofs.CellRow
import Verif.Props.CellExact
import Verif.Proofs.Sphere
import Verif.Proofs.SphereStuck
import Verif.Proofs.SphereGeo
import Verif.Proofs.Frame
import Verif.Spec.Driver
import Verif.Proofs.Driver
import Verif.Proofs.Recompute
import Verif.Props.Driver
import Verif.Spec.Tessellation
import Verif.Props.Tessellation
import Verif.Props.Tiny
import Verif.Props.TessExamples
import Verif.Props.NoInfinite
import Verif.Model.Validate
import Verif.Props.Validate
import Verif.Model.Prog
import Verif.Model.TaskProg
import Verif.Spec.Conc
import Verif.Proofs.ProgRow
import Verif.Proofs.ProgCell
import Verif.Proofs.ProgTask
import Verif.Proofs.Interleave
import Verif.Proofs.ProgSim
import Verif.Proofs.ProgCpu
import Verif.Proofs.ProgRun
import Verif.Props.Conc
import Verif.Model.Gpu
import Verif.Proofs.GpuKnn
import Verif.Proofs.GpuMem
import Verif.Proofs.GpuRun
import Verif.Props.Gpu
import Verif.Model.Cli
import Verif.Proofs.Cli
import Verif.Props.Cli
import Verif.Props.CliRun
import Verif.Model.Stdout
import Verif.Props.Stdout
import Verif.Model.Int32
import Verif.Props.Int32
import Verif.Model.FloatText
import Verif.Proofs.FloatText
import Verif.Props.FloatText
import Verif.Props.FloatNumeral
import Verif.Model.Py
import Verif.Props.Py
import Verif.Model.ArgsCall
import Verif.Props.ArgsCall
import Verif.Model.Ieee
import Verif.Proofs.Ieee
import Verif.Proofs.IeeeTable
import Verif.Proofs.IeeeKnn
import Verif.Props.IeeeGrid
import Verif.Props.IeeeKnn
import Verif.Props.IeeeBadGrid
import Verif.Proofs.CellSim
import Verif.Proofs.IeeeCell
import Verif.Spec.Margin
import Verif.Proofs.MarginBase
import Verif.Proofs.MarginReach
import Verif.Proofs.MarginGeneral
import Verif.Proofs.CornerFar
import Verif.Proofs.IeeeStored
import Verif.Props.IeeeTess
import Verif.Props.IeeeExample
import Verif.Props.IeeeWitness
import Verif.Props.IeeeGpu
import Verif.Props.IeeeCompare
import Verif.Props.IeeeInput
import Verif.Model.Text
import Verif.Spec.Numeral
import Verif.Proofs.RowCount
import Verif.Props.Text
import Verif.Props.PrintText
import Verif.Props.IeeeRun
import Verif.Model.Fma
import Verif.Proofs.Sgl
import Verif.Proofs.SglKnn
import Verif.Proofs.SglCell
import Verif.Proofs.SglAgree
import Verif.Proofs.SglStored
import Verif.Proofs.SglGpu
import Verif.Proofs.SglInput
import Verif.Props.IeeeFma
import Verif.Model.Double
import Verif.Proofs.Wide
import Verif.Props.Double
import Verif.Props.DoubleTess
import Verif.Proofs.Elsewhere
import Verif.Props.Local
import Verif.Proofs.IntMargin
import Verif.Model.PyCall
import Verif.Spec.Enough
import Verif.Proofs.RadiusReach
import Verif.Proofs.SglEnough
import Verif.Proofs.SglConv
import Verif.Proofs.IntEnough
import Verif.Props.PyFloat
import Verif.Props.Readme
import Verif.Props.Enough
import Verif.Props.Flush
import Verif.Props.Cluster
import Verif.Spec.Walk
import Verif.Props.Walk
import Verif.Spec.Delaunay
import Verif.Spec.Symmetry
import Verif.Proofs.Symmetry
import Verif.Proofs.GeneralPerm
import Verif.Proofs.General
import Verif.Props.Delaunay
import Verif.Props.Symmetry
import Verif.Props.Small
import Verif.Props.Added
import Verif.Props.Agreement
import Verif.Spec.Linking
import Verif.Props.Linking
import Verif.Props.Halo
import Verif.Props.EnoughDouble
import Verif.Spec.Ray
import Verif.Props.Ray
