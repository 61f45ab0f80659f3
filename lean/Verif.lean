import Verif.Model.Ace
import Verif.Model.Arith
import Verif.Model.Copy
import Verif.Model.CopyLimit
import Verif.Model.Csv
import Verif.Model.Dne
import Verif.Model.Do
import Verif.Model.EvObj
import Verif.Model.Evidence
import Verif.Model.Examples
import Verif.Model.Factory
import Verif.Model.Flatten
import Verif.Model.GaussSample
import Verif.Model.Gaussian
import Verif.Model.GenFile
import Verif.Model.Generator
import Verif.Model.Graph
import Verif.Model.Hash
import Verif.Model.JoinTree
import Verif.Model.Json
import Verif.Model.JsonLibPgm
import Verif.Model.JsonSort
import Verif.Model.JsonTree
import Verif.Model.Limit
import Verif.Model.NetCopy
import Verif.Model.NxGraph
import Verif.Model.PotDict
import Verif.Model.Potential
import Verif.Model.Pptc
import Verif.Model.Py
import Verif.Model.Sampling
import Verif.Model.Serde
import Verif.Model.Shared
import Verif.Model.Text
import Verif.Model.Trace
import Verif.Spec.Absorb
import Verif.Spec.Blanket
import Verif.Spec.Causal
import Verif.Spec.Chance
import Verif.Spec.Chordal
import Verif.Spec.Close
import Verif.Spec.Coherence
import Verif.Spec.ConnDag
import Verif.Spec.CsvOrder
import Verif.Spec.DSep
import Verif.Spec.Dne
import Verif.Spec.Elim
import Verif.Spec.EvObj
import Verif.Spec.Evidence
import Verif.Spec.Factory
import Verif.Spec.Failing
import Verif.Spec.Faithful
import Verif.Spec.Gaussian
import Verif.Spec.Graph
import Verif.Spec.Joint
import Verif.Spec.Json
import Verif.Spec.Kept
import Verif.Spec.Learn
import Verif.Spec.LibDoc
import Verif.Spec.Likelihood
import Verif.Spec.Link
import Verif.Spec.Local
import Verif.Spec.Mixed
import Verif.Spec.NetCopy
import Verif.Spec.Printed
import Verif.Spec.Relabel
import Verif.Spec.RoundBound
import Verif.Spec.Rounding
import Verif.Spec.SameDoc
import Verif.Spec.SampleChance
import Verif.Spec.SampleFloat
import Verif.Spec.Sampling
import Verif.Spec.Session
import Verif.Spec.Surgery
import Verif.Spec.Underflow
import Verif.Proofs.Ace
import Verif.Proofs.AceBound
import Verif.Proofs.Adjust
import Verif.Proofs.Ancestral
import Verif.Proofs.Apply
import Verif.Proofs.Arith
import Verif.Proofs.Backdoor
import Verif.Proofs.Between
import Verif.Proofs.BinRound
import Verif.Proofs.Bitwise
import Verif.Proofs.Blanket
import Verif.Proofs.Build
import Verif.Proofs.Calibrate
import Verif.Proofs.Chance
import Verif.Proofs.ChancePair
import Verif.Proofs.Chordal
import Verif.Proofs.Cliques
import Verif.Proofs.Close
import Verif.Proofs.CloseLik
import Verif.Proofs.Coherence
import Verif.Proofs.CopyLimit
import Verif.Proofs.Csv
import Verif.Proofs.CsvOrder
import Verif.Proofs.DSep
import Verif.Proofs.DSepProb
import Verif.Proofs.DagWalk
import Verif.Proofs.Dfs
import Verif.Proofs.Dict
import Verif.Proofs.Dirac
import Verif.Proofs.Dne
import Verif.Proofs.Do
import Verif.Proofs.Elim
import Verif.Proofs.EvObj
import Verif.Proofs.EvProgram
import Verif.Proofs.EvidenceStep
import Verif.Proofs.Exact
import Verif.Proofs.Fade
import Verif.Proofs.Failing
import Verif.Proofs.FaithPath
import Verif.Proofs.FaithReal
import Verif.Proofs.Faithful
import Verif.Proofs.FamMin
import Verif.Proofs.Forest
import Verif.Proofs.FromData
import Verif.Proofs.Frontdoor
import Verif.Proofs.Gaussian
import Verif.Proofs.GenConvert
import Verif.Proofs.GenLive
import Verif.Proofs.GenParams
import Verif.Proofs.GenSample
import Verif.Proofs.GenSample3
import Verif.Proofs.GenSampleEvent
import Verif.Proofs.Generator
import Verif.Proofs.GraphInv
import Verif.Proofs.Greedy
import Verif.Proofs.History
import Verif.Proofs.HistoryRun
import Verif.Proofs.InitJt
import Verif.Proofs.Json
import Verif.Proofs.JsonNet
import Verif.Proofs.JsonPrefix
import Verif.Proofs.JsonTree
import Verif.Proofs.Junction
import Verif.Proofs.Kahn
import Verif.Proofs.LearnClose
import Verif.Proofs.LearnFrame
import Verif.Proofs.LearnLaw
import Verif.Proofs.LearnMath
import Verif.Proofs.LearnNet
import Verif.Proofs.LibDoc
import Verif.Proofs.LibPgm
import Verif.Proofs.Likelihood
import Verif.Proofs.LikelihoodNet
import Verif.Proofs.Limit
import Verif.Proofs.Link
import Verif.Proofs.LocalLaw
import Verif.Proofs.Lockstep
import Verif.Proofs.Lost
import Verif.Proofs.Markov
import Verif.Proofs.Message
import Verif.Proofs.MultiWalk
import Verif.Proofs.Named
import Verif.Proofs.NamedExact
import Verif.Proofs.NetCopy
import Verif.Proofs.NetInit
import Verif.Proofs.Normal
import Verif.Proofs.Only
import Verif.Proofs.Orders
import Verif.Proofs.Polytree
import Verif.Proofs.Posterior
import Verif.Proofs.PotDict
import Verif.Proofs.RandomWalk
import Verif.Proofs.Reapply
import Verif.Proofs.Reject
import Verif.Proofs.Relabel
import Verif.Proofs.Remove
import Verif.Proofs.Rip
import Verif.Proofs.RoundCount
import Verif.Proofs.RoundInit
import Verif.Proofs.RoundPass
import Verif.Proofs.RoundRun
import Verif.Proofs.Rounding
import Verif.Proofs.RowKeys
import Verif.Proofs.RowOrder
import Verif.Proofs.SameDoc
import Verif.Proofs.SameTree
import Verif.Proofs.SampleChance
import Verif.Proofs.SampleFail
import Verif.Proofs.SampleFloat
import Verif.Proofs.SampleGrid
import Verif.Proofs.SampleLaw
import Verif.Proofs.SampleNear
import Verif.Proofs.Sampling
import Verif.Proofs.SamplingRun
import Verif.Proofs.Serde
import Verif.Proofs.SerdeTree
import Verif.Proofs.Shared
import Verif.Proofs.SinglyWalk
import Verif.Proofs.Strings
import Verif.Proofs.Table
import Verif.Proofs.Text
import Verif.Proofs.Trace
import Verif.Proofs.Transform
import Verif.Proofs.TreeShape
import Verif.Proofs.Triang
import Verif.Proofs.Ug
import Verif.Proofs.Underflow
import Verif.Proofs.Walk
import Verif.Proofs.WalkArith
import Verif.Props.Absorb
import Verif.Props.Ace
import Verif.Props.AceBound
import Verif.Props.Ancestral
import Verif.Props.Backdoor
import Verif.Props.Between
import Verif.Props.Bitwise
import Verif.Props.Blanket
import Verif.Props.Certain
import Verif.Props.Chain
import Verif.Props.Chordal
import Verif.Props.Cliques
import Verif.Props.Close
import Verif.Props.CloseLik
import Verif.Props.Coherence
import Verif.Props.ComponentLaw
import Verif.Props.Components
import Verif.Props.Copy
import Verif.Props.CopyLimit
import Verif.Props.Csv
import Verif.Props.CsvOrder
import Verif.Props.DSep
import Verif.Props.Decide
import Verif.Props.Dne
import Verif.Props.Do
import Verif.Props.DocFiles
import Verif.Props.Downstream
import Verif.Props.Entropy
import Verif.Props.EvProgram
import Verif.Props.Evidence
import Verif.Props.EvidenceOps
import Verif.Props.Examples
import Verif.Props.Factory
import Verif.Props.FactoryLaw
import Verif.Props.Fade
import Verif.Props.Failing
import Verif.Props.Faithful
import Verif.Props.Flatten
import Verif.Props.Frontdoor
import Verif.Props.GaussSample
import Verif.Props.GaussVar
import Verif.Props.Gaussian
import Verif.Props.GenFile
import Verif.Props.GenSample
import Verif.Props.Generator
import Verif.Props.Graphs
import Verif.Props.Greedy
import Verif.Props.Hash
import Verif.Props.Inference
import Verif.Props.Intervene
import Verif.Props.Jeffrey
import Verif.Props.JoinTrees
import Verif.Props.Json
import Verif.Props.JsonTree
import Verif.Props.Learn
import Verif.Props.LibDoc
import Verif.Props.Likelihood
import Verif.Props.Limit
import Verif.Props.Link
import Verif.Props.Lookup
import Verif.Props.Lost
import Verif.Props.Messages
import Verif.Props.Minimal
import Verif.Props.Missed
import Verif.Props.Monotone
import Verif.Props.NetCopy
import Verif.Props.Numbers
import Verif.Props.Orders
import Verif.Props.Pdag
import Verif.Props.PotDict
import Verif.Props.Potentials
import Verif.Props.Printed
import Verif.Props.PrintedNet
import Verif.Props.Proxy
import Verif.Props.Ratios
import Verif.Props.Reapply
import Verif.Props.Relabel
import Verif.Props.Remove
import Verif.Props.RoundBound
import Verif.Props.Rounding
import Verif.Props.RowKeys
import Verif.Props.RowOrder
import Verif.Props.SameDoc
import Verif.Props.SameJoint
import Verif.Props.SameTree
import Verif.Props.SampleAgree
import Verif.Props.SampleChance
import Verif.Props.SampleExact
import Verif.Props.SampleFloat
import Verif.Props.SampleGrid
import Verif.Props.SampleOrder
import Verif.Props.Sampling
import Verif.Props.Sensitivity
import Verif.Props.Serde
import Verif.Props.Sessions
import Verif.Props.Shared
import Verif.Props.Surgery
import Verif.Props.UgEdges
import Verif.Props.Underflow
import Verif.Props.Uniform
import Verif.Props.UniformSingly
import Verif.Tests.Graphs
import Verif.Tests.Pptc
