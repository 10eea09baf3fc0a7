import Verif.Model.Outcome
import Verif.Model.Hypercube
import Verif.Model.HyperNodeFactory
import Verif.Model.GlobalLoop
import Verif.Model.GlobalClasses
import Verif.Props.Dofs
import Verif.Props.Hypercube
import Verif.Props.GlobalLoop
import Verif.Props.GlobalClasses
import Verif.Props.SparseLA
import Verif.Model.DenseLA
import Verif.Props.DenseLA
import Verif.Model.Lapack
import Verif.Props.Lapack
import Verif.Model.Topology
import Verif.Props.Topology
import Verif.Model.UnitCube
import Verif.Props.UnitCube
import Verif.Props.UnitNormals
import Verif.Props.UnitPoints
import Verif.Model.HyperGraph
import Verif.Props.NodeTypes
import Verif.Props.HyperGraph
import Verif.Props.DiffusionUniform
import Verif.Model.LocalSolver
import Verif.Model.DiffusionUniform
import Verif.Model.Diffusion
import Verif.Props.Diffusion
import Verif.Model.Mapping
import Verif.Model.FileGeometry
import Verif.Props.FileGeometry
import Verif.Proofs.Householder
import Verif.Model.ReadDomain
import Verif.Spec.GeoFile
import Verif.Proofs.ReadDomain
import Verif.Model.EpsilonGraph
import Verif.Proofs.WriteGeo
import Verif.Props.ReadDomain
import Verif.Spec.EpsilonGraph
import Verif.Proofs.EpsilonGraph
import Verif.Props.EpsilonGraph
import Verif.Model.Plot
import Verif.Spec.Plot
import Verif.Proofs.Plot
import Verif.Props.Plot
import Verif.Model.DiffusionParab
import Verif.Spec.Parabolic
import Verif.Proofs.DiffusionParab
import Verif.Proofs.ParabolicEnergy
import Verif.Proofs.GlobalSolve
import Verif.Props.DiffusionParab
import Verif.Spec.Elliptic
import Verif.Model.EllipticProgram
import Verif.Proofs.Rigid
import Verif.Proofs.EllipticProgram
import Verif.Props.Elliptic
import Verif.Spec.Connected
import Verif.Proofs.Connected
import Verif.Props.Connected
import Verif.Model.DiffusionEigs
import Verif.Spec.Eigen
import Verif.Proofs.DiffusionEigs
import Verif.Proofs.MatrixDeriv
import Verif.Proofs.EigenDeriv
import Verif.Proofs.GlobalOk
import Verif.Props.DiffusionEigs
import Verif.Props.Bilaplacian
import Verif.Props.BilaplacianUniform
import Verif.Model.BilaplacianParab
import Verif.Spec.BilaplacianParab
import Verif.Proofs.BilaplacianParab
import Verif.Props.BilaplacianParab
import Verif.Model.BilaplacianEigs
import Verif.Spec.BilaplacianEigs
import Verif.Proofs.BilaplacianEigs
import Verif.Props.BilaplacianEigs
import Verif.Model.Timoshenko
import Verif.Spec.Timoshenko
import Verif.Proofs.Blocks
import Verif.Proofs.Beam
import Verif.Proofs.Timoshenko
import Verif.Props.Timoshenko
import Verif.Props.BeamFrame
import Verif.Model.AdvectionParab
import Verif.Spec.AdvectionParab
import Verif.Proofs.AdvectionParab
import Verif.Proofs.AdvectionEnergy
import Verif.Props.AdvectionParab
import Verif.Props.AdvectionOrientation
import Verif.Props.FilePoints
import Verif.Props.DiffusionPostprocess
import Verif.Model.DiffusionIP
import Verif.Spec.DiffusionIP
import Verif.Proofs.DiffusionIP
import Verif.Proofs.DiffusionIPCube
import Verif.Props.DiffusionIP
import Verif.Model.DiffusionAdvectionReaction
import Verif.Spec.AdvectionReaction
import Verif.Spec.DiffusionAdvectionReaction
import Verif.Proofs.AdvectionReaction
import Verif.Proofs.DiffusionAdvectionReaction
import Verif.Props.DiffusionAdvectionReaction
import Verif.Model.Import
import Verif.Model.ImportDefaults
import Verif.Model.CythonWrapper
import Verif.Spec.Import
import Verif.Proofs.ImportCheck
import Verif.Proofs.ImportHistory
import Verif.Proofs.ImportNames
import Verif.Proofs.ImportExample
import Verif.Props.Import
import Verif.Props.ImportDefaults
import Verif.Props.CythonWrapper
import Verif.Model.ParabolicProgram
import Verif.Spec.ParabolicProgram
import Verif.Proofs.ParabolicProgram
import Verif.Props.ParabolicProgram
import Verif.Model.EigenvalueProgram
import Verif.Spec.EigenvalueProgram
import Verif.Proofs.EigenvalueProgram
import Verif.Proofs.GeneralizedEigen
import Verif.Props.EigenvalueProgram
import Verif.Props.EigenvalueDiffusion
import Verif.Props.EigenvalueExamples
import Verif.Model.NewtonProgram
import Verif.Model.NewtonWrapper
import Verif.Spec.NewtonProgram
import Verif.Proofs.GlobalLoopExtended
import Verif.Proofs.GlobalLength
import Verif.Proofs.NewtonProgram
import Verif.Proofs.NewtonLocal
import Verif.Proofs.EigenSmooth
import Verif.Proofs.BilaplacianSmooth
import Verif.Proofs.NewtonLoops
import Verif.Props.NewtonProgram
import Verif.Props.NewtonLocal
import Verif.Props.NewtonDiffusion
import Verif.Props.NewtonBilaplacian
import Verif.Props.NewtonExamples
import Verif.Props.NewtonBeam
import Verif.Model.ExampleParameters
import Verif.Spec.Exact
import Verif.Proofs.Exact
import Verif.Props.Exact
import Verif.Spec.Polynomials
import Verif.Proofs.Polynomials
import Verif.Spec.PolynomialProblem
import Verif.Proofs.PolynomialProblem
import Verif.Props.ExactPolynomials
import Verif.Spec.ExampleParameters
import Verif.Proofs.ExampleParameters
import Verif.Props.ExampleParameters
import Verif.Proofs.Apriori
import Verif.Proofs.CubeParts
import Verif.Spec.ErrorEstimate
import Verif.Proofs.ErrorEstimate
import Verif.Proofs.ErrorGlobal
import Verif.Props.ErrorEstimate
import Verif.Proofs.ErrorRate
import Verif.Props.ErrorRate
import Verif.Proofs.NetworkEstimate
import Verif.Proofs.NetworkEdge
import Verif.Props.NetworkEstimate
import Verif.Model.EllipticPython
import Verif.Spec.EllipticPython
import Verif.Proofs.EllipticPython
import Verif.Props.EllipticPython
import Verif.Props.EllipticPythonSolvers
import Verif.Model.InteriorPenaltyPrograms
import Verif.Proofs.InverseTrace
import Verif.Props.InteriorPenaltyPrograms
import Verif.Spec.Network
import Verif.Proofs.Network
import Verif.Props.Network
import Verif.Spec.Renumber
import Verif.Props.Renumber
import Verif.Model.FiberNetwork
import Verif.Spec.FiberNetwork
import Verif.Proofs.FiberNetwork
import Verif.Proofs.FiberNetworkFile
import Verif.Props.FiberNetwork
import Verif.Proofs.NodalExact
import Verif.Props.NodalExact
import Verif.Spec.Neumann
import Verif.Proofs.Neumann
import Verif.Proofs.NeumannExact
import Verif.Props.Neumann
import Verif.Props.SteadyState
import Verif.Spec.SteadyState
import Verif.Proofs.SteadyState
import Verif.Spec.Reciprocity
import Verif.Props.Reciprocity
import Verif.Spec.NetworkRefinement
import Verif.Proofs.NetworkSolution
import Verif.Proofs.NetworkRefinement
import Verif.Props.NetworkRefinement
import Verif.Spec.BeamExact
import Verif.Proofs.BeamExact
import Verif.Proofs.BeamLoads
import Verif.Props.BeamExact
import Verif.Spec.BeamRefinement
import Verif.Proofs.BeamRefinement
import Verif.Props.BeamRefinement
import Verif.Props.FileToGraph
import Verif.Props.Supplement
import Verif.Props.BilaplacianExact
import Verif.Props.BilaplacianRefinement
import Verif.Props.BeamBalance
import Verif.Props.BilaplacianSteady
import Verif.Props.BilaplacianBalance
import Verif.Spec.BilaplacianReciprocity
import Verif.Props.BilaplacianReciprocity
import Verif.Props.BilaplacianSuperposition
import Verif.Spec.Superposition
import Verif.Props.DiffusionSuperposition
import Verif.Spec.AdvectionSuperposition
import Verif.Props.AdvectionSuperposition
import Verif.Spec.ReactionSuperposition
import Verif.Props.ReactionSuperposition
