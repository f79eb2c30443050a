import Verif.Model.Basic
import Verif.Model.Optimiser
import Verif.Lemmas.Optimiser
import Verif.Props.Optimiser
import Verif.Model.Polygons
import Verif.Spec.Polygons
import Verif.Lemmas.Polygons
import Verif.Lemmas.Triangulate
import Verif.Lemmas.Convex
import Verif.Props.Polygons
import Verif.Model.Quadrature
import Verif.Spec.Quadrature
import Verif.Lemmas.Quadrature
import Verif.Lemmas.PolygonQuad
import Verif.Model.ShapedCoil
import Verif.Props.Quadrature
import Verif.Model.Coil
import Verif.Model.Machine
import Verif.Model.Greens
import Verif.Model.Optimise
import Verif.Spec.Machine
import Verif.Lemmas.Machine
import Verif.Lemmas.MachineGreens
import Verif.Lemmas.Forces
import Verif.Props.Greens
import Verif.Props.Machine
import Verif.Props.Coils
import Verif.Model.Control
import Verif.Spec.Control
import Verif.Lemmas.Control
import Verif.Props.Control
import Verif.Props.FluxFit
import Verif.Model.Critical
import Verif.Spec.Critical
import Verif.Lemmas.CoreMask
import Verif.Props.CoreMask
import Verif.Props.Critical
import Verif.Props.Surface
import Verif.Spec.Greens
import Verif.Lemmas.GreensPhysics
import Verif.Props.GreensPhysics
import Verif.Model.GradShafranov
import Verif.Spec.GradShafranov
import Verif.Lemmas.GradShafranov
import Verif.Props.GradShafranov
import Verif.Lemmas.Boundary
import Verif.Props.Boundary
import Verif.Model.Jtor
import Verif.Lemmas.Jtor
import Verif.Props.Jtor
import Verif.Model.Picard
import Verif.Spec.Picard
import Verif.Props.Picard
import Verif.Model.Equilibrium
import Verif.Model.Limits
import Verif.Props.Equilibrium
import Verif.Props.Limits
import Verif.Model.Multigrid
import Verif.Spec.Multigrid
import Verif.Lemmas.Multigrid
import Verif.Props.Multigrid
import Verif.Props.Smoothing
import Verif.Model.Resolution
import Verif.Props.Resolution
import Verif.Model.Geqdsk
import Verif.Lemmas.Geqdsk
import Verif.Props.Geqdsk
import Verif.Model.Global
import Verif.Lemmas.Romberg
import Verif.Lemmas.Global
import Verif.Props.Shape
import Verif.Props.Global
import Verif.Props.TorFlux
import Verif.Spec.Dump
import Verif.Model.Dump
import Verif.Lemmas.Dump
import Verif.Props.Dump
import Verif.Model.FieldTracer
import Verif.Spec.FieldTracer
import Verif.Lemmas.FieldTracer
import Verif.Props.FieldTracer
import Verif.Model.Separatrix
import Verif.Lemmas.Separatrix
import Verif.Props.Separatrix
import Verif.Model.NormFit
import Verif.Props.NormFit
import Verif.Model.Filaments
import Verif.Props.Filaments
import Verif.Props.CriticalMore
import Verif.Lemmas.Convergence
import Verif.Props.Convergence
import Verif.Spec.Symmetry
import Verif.Lemmas.Symmetry
import Verif.Props.Symmetry
import Verif.Model.Predefined
import Verif.Spec.Predefined
import Verif.Lemmas.Predefined
import Verif.Props.Predefined
import Verif.Model.Equality
import Verif.Spec.Equality
import Verif.Lemmas.Equality
import Verif.Props.Equality
import Verif.Spec.Vacuum
import Verif.Lemmas.Vacuum
import Verif.Props.Vacuum
import Verif.Model.Fields
import Verif.Spec.Fields
import Verif.Props.Fields
import Verif.Spec.ForceBalance
import Verif.Props.ForceBalance
import Verif.Spec.Scaling
import Verif.Spec.ScaledControl
import Verif.Lemmas.Scaling
import Verif.Lemmas.ScaledControl
import Verif.Props.Scaling
import Verif.Props.ScaledControl
import Verif.Spec.Parity
import Verif.Lemmas.Parity
import Verif.Model.WallTest
import Verif.Props.WallTest
import Verif.Spec.FieldLines
import Verif.Lemmas.FieldLines
import Verif.Props.FieldLines
import Verif.Spec.Translation
import Verif.Lemmas.Translation
import Verif.Props.Translation
import Verif.Model.GeqdskRead
import Verif.Lemmas.GeqdskRead
import Verif.Lemmas.ReadBack
import Verif.Props.GeqdskRead
import Verif.Props.ReadBack
import Verif.Spec.PicardConvergence
import Verif.Props.PicardConvergence
import Verif.Props.PicardEquilibrium
import Verif.Model.OptimiseEq
import Verif.Props.OptimiseEq
import Verif.Model.Measurements
import Verif.Props.Measurements
import Verif.Props.Nulls
import Verif.Props.NullsSmooth
import Verif.Spec.FourthOrder
import Verif.Lemmas.Energy
import Verif.Lemmas.FourthOrder
import Verif.Lemmas.Taylor
import Verif.Props.FourthOrder
import Verif.Lemmas.PickUnique
import Verif.Props.PicardFourthOrder
import Verif.Model.Nested
import Verif.Spec.Nested
import Verif.Lemmas.Nested
import Verif.Props.Nested
import Verif.Spec.Romberg
import Verif.Lemmas.RombergExact
import Verif.Props.Romberg
import Verif.Lemmas.FreeBoundary
import Verif.Lemmas.SmoothKernel
import Verif.Props.FreeBoundary
import Verif.Lemmas.GreenIdentity
import Verif.Lemmas.Hagenow
import Verif.Props.Hagenow
import Verif.Props.FilamentBox
import Verif.Props.LeastSquares
import Verif.Props.ControlOrder
import Verif.Spec.FluxFunction
import Verif.Lemmas.Ampere
import Verif.Lemmas.Representation
import Verif.Props.Ampere
import Verif.Props.Unbounded
import Verif.Model.Records
import Verif.Props.Records
import Verif.Model.Trace
import Verif.Props.Trace
import Verif.Props.DefaultUnbounded
import Verif.Spec.RombergRate
import Verif.Lemmas.RombergRate
import Verif.Props.RombergRate
import Verif.Props.FreeBoundaryRate
import Verif.Spec.Resize
import Verif.Lemmas.Resize
import Verif.Lemmas.ResizeEq
import Verif.Lemmas.ResizeControl
import Verif.Props.Resize
import Verif.Props.ResizeRun
import Verif.Model.Store
import Verif.Spec.Store
import Verif.Lemmas.Store
import Verif.Lemmas.StoreValues
import Verif.Lemmas.StoreCrash
import Verif.Lemmas.StorePicard
import Verif.Lemmas.StoreSound
import Verif.Props.Store
import Verif.Props.StoreCrash
import Verif.Lemmas.Vcycle
import Verif.Lemmas.VcycleGrowth
import Verif.Props.Vcycle
import Verif.Lemmas.Attract
import Verif.Props.Attract
import Verif.Props.MoreCurrent
import Verif.Props.StableControl
import Verif.Props.RepeatedControl
import Verif.Props.LimitedControl
import Verif.Props.VirtualWork
import Verif.Props.GammaControl
import Verif.Props.Reciprocity
import Verif.Props.MoreRequests
import Verif.Props.EnergyPrinciple
import Verif.Props.FilamentField
import Verif.Props.MoreFit
import Verif.Props.ToroidalField
import Verif.Props.SameMachine
import Verif.Props.LimitOrder
