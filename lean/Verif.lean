import Verif.Base.Core
import Verif.Base.Dict
import Verif.Model.Components
import Verif.Model.SampleGraph
import Verif.Model.SampleGraphBuilder
import Verif.Spec.Graph
import Verif.Lemmas.Connected
import Verif.Lemmas.Provider
import Verif.Lemmas.Builder
import Verif.Lemmas.AddRelation
import Verif.Props.Connectivity
import Verif.Props.Components
import Verif.Model.ProviderCalls
import Verif.Props.ProviderCalls
import Verif.Props.Builder
import Verif.Props.RoundTrip
import Verif.Props.SampleGraph
import Verif.Spec.Distance
import Verif.Lemmas.Belt
import Verif.Props.Belt
import Verif.Model.SampleSet
import Verif.Spec.Counts
import Verif.Lemmas.SampleSet
import Verif.Props.SampleSet
import Verif.Props.CountOf
import Verif.Lemmas.Group
import Verif.Lemmas.GroupExact
import Verif.Props.Group
import Verif.Model.SampleSpace
import Verif.Lemmas.SampleSpace
import Verif.Props.SampleSpace
import Verif.Props.Folded
import Verif.Props.Factorized
import Verif.Model.Conditional
import Verif.Lemmas.Activation
import Verif.Props.Conditional
import Verif.Props.Activation
import Verif.Model.RelationGraphBuilder
import Verif.Lemmas.Odometer
import Verif.Lemmas.Generate
import Verif.Props.RelationGraphBuilder
import Verif.Props.Generate
import Verif.Model.SpacePower
import Verif.Lemmas.Counting
import Verif.Props.Count
import Verif.Model.Joined
import Verif.Spec.Join
import Verif.Lemmas.Joined
import Verif.Lemmas.JoinSystem
import Verif.Props.JoinOn
import Verif.Lemmas.MakeJoined
import Verif.Props.MakeJoined
import Verif.Lemmas.Elimination
import Verif.Props.MakeJoinedShapes
import Verif.Props.Inference
import Verif.Props.Text
import Verif.Props.Heap
import Verif.Props.Hash
import Verif.Props.SubGraphs
import Verif.Props.BuilderHistory
import Verif.Props.HeapCopies
import Verif.Model.PacGrid
import Verif.Model.PacGame
import Verif.Spec.Pac
import Verif.Lemmas.PacGrid
import Verif.Lemmas.PacGame
import Verif.Lemmas.PacStep
import Verif.Props.PacGrid
import Verif.Props.PacMoves
import Verif.Props.PacRegion
import Verif.Props.PacLayout
import Verif.Props.PacScore
import Verif.Model.PacRun
import Verif.Props.PacRun
import Verif.Model.PacUtil
import Verif.Props.PacCounter
import Verif.Props.PacSample
import Verif.Props.PacAgents
import Verif.Model.PacQueue
import Verif.Props.PacQueue
import Verif.Lemmas.Tables
import Verif.Lemmas.Star
import Verif.Lemmas.TableInference
import Verif.Model.Bayes
import Verif.Props.BayesNet
import Verif.Props.BayesGraph
import Verif.Props.BayesJoint
import Verif.Props.BayesCompare
import Verif.Props.BayesExperiment
import Verif.Props.BayesStudent
import Verif.Lemmas.TwoFactors
import Verif.Model.Markov
import Verif.Props.MarkovGraph
import Verif.Props.MarkovJoint
import Verif.Lemmas.Gaps
import Verif.Props.Gaps
import Verif.Model.Coins
import Verif.Props.Coins
import Verif.Model.PacEq
import Verif.Props.PacEq
import Verif.Model.PacHeap
import Verif.Lemmas.PacHeap
import Verif.Props.PacHeap
import Verif.Base.Float
import Verif.Model.PyFloat
import Verif.Lemmas.FloatSum
import Verif.Model.FloatProb
import Verif.Props.FloatProb
import Verif.Props.FloatActivation
import Verif.Model.Depth
import Verif.Lemmas.Depth
import Verif.Lemmas.DepthJoin
import Verif.Props.Depth
import Verif.Model.Drawing
import Verif.Lemmas.Drawing
import Verif.Props.Drawing
import Verif.Props.DrawingFold
import Verif.Props.DrawingText
import Verif.Model.ManualBayes
import Verif.Props.ManualBayes
import Verif.Model.Describe
import Verif.Props.Describe
import Verif.Props.NameText
import Verif.Props.ChecksDecide
import Verif.Props.SecondHalves
import Verif.Props.PacSwap
import Verif.Props.Laws
import Verif.Model.PacFloat
import Verif.Props.PacFloat
import Verif.Props.PacFloatGhost
import Verif.Model.PacDisplay
import Verif.Lemmas.PacDisplay
import Verif.Lemmas.PacDisplayInit
import Verif.Spec.PacDisplay
import Verif.Props.PacDisplay
import Verif.Spec.PacWalls
import Verif.Props.PacWalls
import Verif.Model.PacText
import Verif.Spec.PacText
import Verif.Props.PacText
import Verif.Model.PacLoad
import Verif.Spec.PacLoad
import Verif.Props.PacLoad
import Verif.Props.SampleSetJoin
import Verif.Props.DepthEmpty
import Verif.Props.SubGraphsNet
import Verif.Model.PacSession
import Verif.Spec.PacSession
import Verif.Props.PacSession
import Verif.Props.PacGames
import Verif.Model.PowerFloat
import Verif.Props.CountFloat
import Verif.Model.MarkovFloat
import Verif.Lemmas.NpSum
import Verif.Lemmas.TablesFloat
import Verif.Props.MarkovFloat
import Verif.Props.MarkovFloatExample
import Verif.Model.BayesFloat
import Verif.Props.BayesFloatGraph
import Verif.Props.BayesFloatCompare
import Verif.Props.BayesFloat
import Verif.Props.BayesFloatStudent
import Verif.Model.PyHeapq
import Verif.Props.PyHeapq
import Verif.Model.JoinDepth
import Verif.Lemmas.JoinDepth
import Verif.Props.JoinDepth
import Verif.Model.PacQuery
import Verif.Props.PacQuery
import Verif.Model.PacTimeout
import Verif.Props.PacTimeout
import Verif.Model.PacTimed
import Verif.Props.PacTimed
import Verif.Props.Degenerate
import Verif.Lemmas.PairElim
import Verif.Props.PairNetworks
import Verif.Lemmas.PartsElim
import Verif.Props.Parts
import Verif.Lemmas.FieldsElim
import Verif.Props.Fields
import Verif.Lemmas.CutsetElim
import Verif.Props.Cutset
import Verif.Model.PacOverlay
import Verif.Spec.PacOverlay
import Verif.Lemmas.PacOverlay
import Verif.Props.PacOverlay
import Verif.Props.PacBelief
import Verif.Lemmas.JoinBlocks
import Verif.Props.JoinMany
import Verif.Props.Posterior
import Verif.Props.EdgeEvidence
import Verif.Props.PosteriorFloat
import Verif.Model.JoinOnDepth
import Verif.Lemmas.JoinOnDepth
import Verif.Props.JoinOnDepth
import Verif.Props.SameContent
import Verif.Model.PacIO
import Verif.Props.PacClicks
import Verif.Props.PacIO
import Verif.Props.PacNeighbors
import Verif.Props.NamesQueues
import Verif.Props.PacDirOrder
import Verif.Model.PacFirstPerson
import Verif.Props.PacFirstPerson
import Verif.Model.VarText
import Verif.Props.VarText
import Verif.Model.Len
import Verif.Props.Len
import Verif.Model.ManualFloat
import Verif.Props.ManualFloat
import Verif.Model.BigCounts
import Verif.Props.BigCounts
import Verif.Model.BigActivation
import Verif.Props.BigActivation
