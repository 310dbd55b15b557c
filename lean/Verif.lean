import Verif.Model.Util
import Verif.Model.Mesh
import Verif.Model.Lattice
import Verif.Model.Material
import Verif.Model.Matrix
import Verif.Model.Dense
import Verif.Model.Solver
import Verif.Model.Sweep
import Verif.Model.Angle
import Verif.Model.Boundary
import Verif.Model.Geometry
import Verif.Model.Coarse
import Verif.Model.Homog
import Verif.Model.Kinetics
import Verif.Model.Orthog
import Verif.Model.Diffusion
import Verif.Model.Restrict
import Verif.Model.MGSolve
import Verif.Model.Parser
import Verif.Model.Rates
import Verif.Model.EigenPI
import Verif.Model.QuadGen
import Verif.Model.QuadTables
import Verif.Model.Gmres
import Verif.Model.Moc
import Verif.Model.EigenSolve
import Verif.Model.DiffSolve
import Verif.Model.Sources
import Verif.Model.Managers
import Verif.Model.EigenDiff
import Verif.Model.CmfdUpdate
import Verif.Model.EigenOps
import Verif.Model.Precond
import Verif.Model.CallowVector
import Verif.Model.CallowNorm
import Verif.Model.Hdf5
import Verif.Model.Execute
import Verif.Model.Ppm
import Verif.Model.Lra
import Verif.Model.Spectrum
import Verif.Model.Rom
import Verif.Model.Ilut
import Verif.Model.Tracker
import Verif.Model.Random
import Verif.Model.Threads
import Verif.Model.WGReflect
import Verif.Model.MGReflect
import Verif.Model.Transient
import Verif.Model.SolverDb
import Verif.Model.GaussSeidel
import Verif.Model.MatCalls
import Verif.Model.Matlab
import Verif.Lemmas.Util
import Verif.Lemmas.Mesh
import Verif.Lemmas.Lattice
import Verif.Lemmas.Material
import Verif.Lemmas.Matrix
import Verif.Lemmas.Solver
import Verif.Lemmas.Sweep
import Verif.Lemmas.Geometry
import Verif.Lemmas.Diffusion
import Verif.Lemmas.Gmres
import Verif.Lemmas.GmresStep
import Verif.Lemmas.WGReflect
import Verif.Lemmas.WGReflectGeom
import Verif.Lemmas.MGReflect
import Verif.Lemmas.SIConv
import Verif.Lemmas.GaussSeidel
import Verif.Lemmas.Recip
import Verif.Lemmas.DiffPos
import Verif.Lemmas.Positive
import Verif.Lemmas.PosExist
import Verif.Lemmas.Perron
import Verif.Lemmas.Lights
import Verif.Lemmas.RefineCell
import Verif.Lemmas.Refine
import Verif.Lemmas.RefineDiff
import Verif.Lemmas.Fold
import Verif.Lemmas.Prufer
import Verif.Lemmas.LegendreRoots
import Verif.Lemmas.Multistep
import Verif.Lemmas.StepConverge
import Verif.Lemmas.PerronRough
import Verif.Lemmas.Absorb
import Verif.Lemmas.DiffFold
import Verif.Lemmas.Unsettled
import Verif.Props.Util
import Verif.Props.Mesh
import Verif.Props.Lattice
import Verif.Props.Material
import Verif.Props.Matrix
import Verif.Props.Dense
import Verif.Props.Solver
import Verif.Props.Sweep
import Verif.Props.Balance
import Verif.Props.Octants
import Verif.Props.SweepSign
import Verif.Props.SweepFlat
import Verif.Props.Angle
import Verif.Props.Quadrature
import Verif.Props.QuadratureSets
import Verif.Props.Harmonics
import Verif.Props.Boundary
import Verif.Props.Geometry
import Verif.Props.GeometryBuild
import Verif.Props.Tracks
import Verif.Props.Coarse
import Verif.Props.Homog
import Verif.Props.Kinetics
import Verif.Props.Stepper
import Verif.Props.Orthog
import Verif.Props.OrthogCont
import Verif.Props.Diffusion
import Verif.Props.DiffusionGain
import Verif.Props.MatrixRefill
import Verif.Props.Cmfd
import Verif.Props.Restrict
import Verif.Props.MGSolve
import Verif.Props.Parser
import Verif.Props.Rates
import Verif.Props.EigenPI
import Verif.Props.QuadGauss
import Verif.Props.QuadTables
import Verif.Props.QuadNewton
import Verif.Props.Gmres
import Verif.Props.Moc
import Verif.Props.EigenSolve
import Verif.Props.Davidson
import Verif.Props.DiffSolve
import Verif.Props.Sources
import Verif.Props.Managers
import Verif.Props.EigenDiff
import Verif.Props.CmfdUpdate
import Verif.Props.EigenCmfd
import Verif.Props.EigenOps
import Verif.Props.Precond
import Verif.Props.CallowVector
import Verif.Props.CallowNorm
import Verif.Props.Hdf5
import Verif.Props.Execute
import Verif.Props.Ppm
import Verif.Props.Lra
import Verif.Props.Spectrum
import Verif.Props.Rom
import Verif.Props.Ilut
import Verif.Props.Tracker
import Verif.Props.Random
import Verif.Props.Threads
import Verif.Props.WGReflect
import Verif.Props.MGReflect
import Verif.Props.Transient
import Verif.Props.SolverDb
import Verif.Props.SIConv
import Verif.Props.GaussSeidel
import Verif.Props.Recip
import Verif.Props.Infinite
import Verif.Props.Positive
import Verif.Props.DiffSigns
import Verif.Props.Keff
import Verif.Props.KeffFlux
import Verif.Props.KeffDiff
import Verif.Props.TransSigns
import Verif.Props.TransCases
import Verif.Props.Refine
import Verif.Props.RefineKeff
import Verif.Props.RefineDiff
import Verif.Props.RefineDiffKeff
import Verif.Props.MatCalls
import Verif.Props.Fold
import Verif.Props.Symmetry
import Verif.Props.QuadConverge
import Verif.Props.TransOrder
import Verif.Props.TransSharp
import Verif.Props.KeffRough
import Verif.Props.KeffGS
import Verif.Props.Matlab
import Verif.Props.Absorb
import Verif.Props.DiffFold
import Verif.Props.Perturb
import Verif.Props.PerturbSN
import Verif.Props.Condense
import Verif.Props.Checker
import Verif.Props.Kernel
import Verif.Props.MGKernel
import Verif.Props.KrylovRun
import Verif.Props.KrylovMirrors
import Verif.Props.GroupSides
import Verif.Props.DiffKrylov
import Verif.Props.Stationary
import Verif.Props.DiffStationary
import Verif.Props.Monotone
import Verif.Props.Richardson
