import Verif.Model.Pauli
import Verif.Spec.Quantum
import Verif.Spec.Stabiliser
import Verif.Lemmas.Quantum
import Verif.Lemmas.Gates
import Verif.Lemmas.Stab
import Verif.Lemmas.Measure
import Verif.Lemmas.Reset
import Verif.Lemmas.Multiply
import Verif.Lemmas.Unique
import Verif.Props.Pauli
import Verif.Props.Measure
import Verif.Model.PauliText
import Verif.Lemmas.PauliText
import Verif.Props.PauliText
import Verif.Model.PauliState
import Verif.Lemmas.PauliState
import Verif.Lemmas.MeasureLoop
import Verif.Props.PauliState

import Verif.Model.Circuit
import Verif.Spec.Circuit
import Verif.Lemmas.Circuit
import Verif.Lemmas.CircuitCount
import Verif.Props.Circuit
import Verif.Model.Sim
import Verif.Spec.Sim
import Verif.Lemmas.Sim
import Verif.Lemmas.SimChain
import Verif.Lemmas.SimRun
import Verif.Lemmas.SimPre
import Verif.Props.Sim
import Verif.Model.Stim
import Verif.Spec.Stim
import Verif.Lemmas.Stim
import Verif.Props.Stim
import Verif.Model.Lattice
import Verif.Model.Codes
import Verif.Lemmas.Lattice
import Verif.Spec.Codes
import Verif.Lemmas.LatticeOp
import Verif.Lemmas.LatticeCode
import Verif.Lemmas.Grid
import Verif.Lemmas.Repetition
import Verif.Lemmas.Planar
import Verif.Lemmas.Family
import Verif.Lemmas.Toric
import Verif.Lemmas.Rotated
import Verif.Lemmas.SmallCodes
import Verif.Lemmas.CodeProps
import Verif.Lemmas.Schedule
import Verif.Lemmas.Fabrication
import Verif.Props.Codes
import Verif.Lemmas.FabricationQubit
import Verif.Props.Fabrication
import Verif.Spec.CssLattice
import Verif.Lemmas.FabricationTotal
import Verif.Lemmas.FabricationRemove
import Verif.Lemmas.FabricationCss
import Verif.Props.FabricationTotal
import Verif.Props.CodeEquality
import Verif.Model.Errors
import Verif.Model.Generator
import Verif.Lemmas.Noiseless
import Verif.Lemmas.QecRun
import Verif.Lemmas.GenGates
import Verif.Lemmas.QecCircuit
import Verif.Lemmas.Sample
import Verif.Lemmas.QecMain
import Verif.Lemmas.QecDirect
import Verif.Lemmas.QecFamilies
import Verif.Lemmas.QecExperiment
import Verif.Props.Generator
import Verif.Props.Errors
import Verif.Model.Syngraph
import Verif.Lemmas.Syngraph
import Verif.Lemmas.SynDup
import Verif.Lemmas.SynComp
import Verif.Lemmas.SynMain
import Verif.Props.Syngraph
import Verif.Props.QubitErrors
import Verif.Model.Erasure
import Verif.Lemmas.Erasure
import Verif.Lemmas.ErasurePeel
import Verif.Lemmas.ErasureForest
import Verif.Lemmas.ErasureMain
import Verif.Props.Erasure
import Verif.Model.UnionFind
import Verif.Lemmas.UnionFind
import Verif.Lemmas.UFAdd
import Verif.Lemmas.UFMerge
import Verif.Lemmas.UFUpdate
import Verif.Lemmas.UFInit
import Verif.Lemmas.UFStart
import Verif.Lemmas.UFStep
import Verif.Lemmas.UFSpan
import Verif.Props.UnionFind
import Verif.Model.Decoder
import Verif.Lemmas.Frame
import Verif.Lemmas.DecoderGraph
import Verif.Lemmas.DecoderMain
import Verif.Lemmas.DecoderTotal
import Verif.Props.Decoder
import Verif.Props.Erased
import Verif.Model.Weights
import Verif.Lemmas.Weights
import Verif.Props.Weights
import Verif.Lemmas.Distance
import Verif.Lemmas.PlanarDist
import Verif.Lemmas.ToricDist
import Verif.Lemmas.RotatedDist
import Verif.Lemmas.SmallDist
import Verif.Props.Families
import Verif.Spec.Faults
import Verif.Lemmas.UFArc
import Verif.Lemmas.UFReach
import Verif.Lemmas.LinesMain
import Verif.Lemmas.LineSystem
import Verif.Lemmas.FaultEdges
import Verif.Lemmas.Corrected
import Verif.Lemmas.LineLattice
import Verif.Lemmas.PlanarLines
import Verif.Lemmas.ToricLines
import Verif.Lemmas.RotatedLines
import Verif.Lemmas.RepLines
import Verif.Lemmas.CorrectedCode
import Verif.Lemmas.Apart
import Verif.Props.Correction
import Verif.Spec.Layout
import Verif.Lemmas.Layout
import Verif.Lemmas.Unpack
import Verif.Props.Layout
import Verif.Model.Frontend
import Verif.Lemmas.Frontend
import Verif.Props.Frontend
import Verif.Spec.Noise
import Verif.Lemmas.NoisyRun
import Verif.Lemmas.NoisyRound
import Verif.Lemmas.NoisyData
import Verif.Lemmas.NoisyRounds
import Verif.Lemmas.NoisyGen
import Verif.Lemmas.NoisySample
import Verif.Props.NoisyExperiment
import Verif.Model.Experiment
import Verif.Props.Experiment
import Verif.Model.Matching
import Verif.Spec.Matching
import Verif.Lemmas.Matching
import Verif.Lemmas.MatchingFb
import Verif.Lemmas.MatchingGood
import Verif.Lemmas.MatchingMain
import Verif.Lemmas.MatchingBackend
import Verif.Lemmas.MatchingSolver
import Verif.Props.Matching
import Verif.Props.MatchingExperiment
import Verif.Props.Likelihood
import Verif.Model.ErrorData
import Verif.Spec.ErrorData
import Verif.Lemmas.ErrorData
import Verif.Props.ErrorData
import Verif.Spec.PauliFrame
import Verif.Lemmas.PauliFrame
import Verif.Lemmas.PauliRun
import Verif.Props.PauliFrame
import Verif.Spec.GateFaults
import Verif.Lemmas.GateTrace
import Verif.Lemmas.FrameBlock
import Verif.Lemmas.GateGen
import Verif.Lemmas.GateRounds
import Verif.Lemmas.GateSteps
import Verif.Lemmas.GateSample
import Verif.Props.GateErrors
import Verif.Model.Config
import Verif.Model.Device
import Verif.Lemmas.Config
import Verif.Props.Config
import Verif.Props.Device
import Verif.Spec.LocalNoise
import Verif.Lemmas.Trail
import Verif.Lemmas.Rare
import Verif.Lemmas.Failure
import Verif.Lemmas.Threshold
import Verif.Props.Threshold
import Verif.Spec.Random
import Verif.Lemmas.RandomRun
import Verif.Lemmas.RandomTrace
import Verif.Lemmas.Blame
import Verif.Lemmas.BlameCount
import Verif.Lemmas.BlamePlaces
import Verif.Lemmas.Causes
import Verif.Lemmas.RandomLocal
import Verif.Lemmas.FairRng
import Verif.Props.RandomExperiment
import Verif.Lemmas.Shots
import Verif.Props.RandomRates
import Verif.Spec.Distribution
import Verif.Lemmas.Distribution
import Verif.Lemmas.DistributionRun
import Verif.Lemmas.FairExact
import Verif.Props.Distribution
import Verif.Spec.StimSemantics
import Verif.Lemmas.StimLift
import Verif.Lemmas.StimCorr
import Verif.Lemmas.StimGateCorr
import Verif.Lemmas.StimRunCorr
import Verif.Props.StimDistribution
import Verif.Model.FromOperators
import Verif.Spec.FromOperators
import Verif.Lemmas.FromOperators
import Verif.Props.FromOperators
import Verif.Model.StringState
import Verif.Spec.StringState
import Verif.Lemmas.StringState
import Verif.Props.StringState
import Verif.Model.ResetText
import Verif.Props.ResetText
import Verif.Model.GenerateErrors
import Verif.Props.GenerateErrors
import Verif.Model.ApplyOperator
import Verif.Props.ApplyOperator
import Verif.Model.Statistics
import Verif.Props.Statistics
import Verif.Model.QasmText
import Verif.Spec.Qasm
import Verif.Lemmas.Qasm
import Verif.Props.Qasm
import Verif.Model.ErasureWeights
import Verif.Props.ErasureWeights
import Verif.Model.Visualizer
import Verif.Lemmas.Visualizer
import Verif.Props.Visualizer
import Verif.Model.Dump
import Verif.Props.Dump
import Verif.Model.DecoderState
import Verif.Lemmas.DecoderState
import Verif.Props.DecoderState
import Verif.Props.WeightedThreshold
import Verif.Props.DataThreshold
import Verif.Props.WeightedExperiment
import Verif.Lemmas.GenWalk
import Verif.Lemmas.Rates
import Verif.Props.Rates
import Verif.Lemmas.OnlyZ
import Verif.Props.WeightedRates
import Verif.Model.ConfigBuild
import Verif.Lemmas.ConfigBuild
import Verif.Props.ConfigBuild
import Verif.Model.Session
import Verif.Lemmas.Repeat
import Verif.Lemmas.Session
import Verif.Props.Repeat
import Verif.Props.Session
import Verif.Model.StimExperiment
import Verif.Spec.StimSampler
import Verif.Lemmas.StimExperiment
import Verif.Lemmas.GenShape
import Verif.Lemmas.GenStim
import Verif.Props.StimExperiment
import Verif.Lemmas.RateOrder
import Verif.Props.RateOrder
import Verif.Lemmas.ScriptedRun
import Verif.Lemmas.ScriptedShot
import Verif.Lemmas.HalfShot
import Verif.Props.RateLower
import Verif.Model.UnionFindSwitches
import Verif.Lemmas.UFSwitches
import Verif.Props.UnionFindSwitches
import Verif.Lemmas.UFScale
import Verif.Props.UnionFindWeights
import Verif.Lemmas.FabricationSchedule
import Verif.Props.FabricationCircuit
import Verif.Lemmas.FabricationDecode
import Verif.Props.FabricationDecode
import Verif.Spec.FabricationChain
import Verif.Lemmas.FabricationDistance
import Verif.Props.FabricationDistance
import Verif.Spec.FaultLetters
import Verif.Lemmas.DistanceDecode
import Verif.Props.DistanceDecode
import Verif.Model.GeneratorObject
import Verif.Lemmas.GeneratorObject
import Verif.Props.GeneratorObject
import Verif.Props.QasmTotal
import Verif.Model.ConfigUpdate
import Verif.Spec.ConfigValid
import Verif.Props.ConfigUpdate
import Verif.Props.FabricationExperiment
import Verif.Spec.ConfigAttrs
import Verif.Props.FabricationRates
import Verif.Model.QuantumState
import Verif.Spec.QuantumState
import Verif.Props.QuantumState
import Verif.Model.PyCircuit
import Verif.Spec.PyCircuit
import Verif.Props.PyCircuit
import Verif.Model.Stepping
import Verif.Spec.Stepping
import Verif.Props.Stepping
import Verif.Model.StateText
import Verif.Spec.StateText
import Verif.Props.StateText
import Verif.Model.CircuitDrawing
import Verif.Spec.CircuitDrawing
import Verif.Props.CircuitDrawing
import Verif.Model.PyChannels
import Verif.Spec.PyChannels
import Verif.Props.PyChannels
import Verif.Props.QasmInitial
import Verif.Props.SessionRuns
import Verif.Props.DrawingRows
