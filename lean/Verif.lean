import Verif.Trie
import Verif.WordLemmas
import Verif.BiaLemmas
import Verif.FlagLemmas
import Verif.Wf
import Verif.Insert
import Verif.Remove
import Verif.TrieLemmas
import Verif.Spec
import Verif.History
import Verif.HistoryLemmas
import Verif.Ops
import Verif.Transform
import Verif.BulkSpec
import Verif.LoopLemmas
import Verif.TransformLemmas
import Verif.TransmuteLemmas
import Verif.BulkLemmas
import Verif.Reach
import Verif.Examples
import Verif.JointOps
import Verif.JointList
import Verif.JointNode
import Verif.JointSpec
import Verif.ClosureSpec
import Verif.ClosureLemmas
import Verif.JointCases
import Verif.JointSem
import Verif.JointLoop
import Verif.JointVector
import Verif.JointListLemmas
import Verif.JointFlat
import Verif.JointPair
import Verif.JointTree
import Verif.JointTrie
import Verif.JointTwtList
import Verif.JointTwt
import Verif.JointStall
import Verif.JointApi
import Verif.JointFind
import Verif.JointExamples
import Verif.ParLemmas
import Verif.NatBase
import Verif.NatJoint
import Verif.NatTrie
import Verif.Props.Bits
import Verif.Props.Single
import Verif.Props.Histories
import Verif.Props.Bulk
import Verif.Props.Joint
import Verif.Props.Reduce
import Verif.Props.Parallel
import Verif.Api
import Verif.SetSpec
import Verif.SetLemmas
import Verif.SetReach
import Verif.SetExamples
import Verif.Props.Sets
import Verif.SetAlg
import Verif.Props.Algebra
import Verif.Props.Transfute
import Verif.Hasher
import Verif.HasherLemmas
import Verif.Props.Hasher
import Verif.Arc
import Verif.ArcBia
import Verif.ArcSim
import Verif.ArcInsert
import Verif.ArcTransform
import Verif.ArcTrie
import Verif.Props.Equality
import Verif.MixedSpec
import Verif.Mixed
import Verif.Props.Mixed
import Verif.ReachSize
import Verif.Props.Flip
import Verif.Build
import Verif.BuildLemmas
import Verif.Props.Build
import Verif.JointClash
import Verif.Alike
import Verif.Props.Contents
import Verif.Props.Closure
import Verif.AgreeSpec
import Verif.AgreeLemmas
import Verif.Props.Agree
import Verif.CrowdSpec
import Verif.Crowd
import Verif.Props.Overflow
import Verif.Eff
import Verif.EffList
import Verif.EffNode
import Verif.EffBase
import Verif.EffTables
import Verif.EffSimList
import Verif.EffLoop
import Verif.EffSimNode
import Verif.EffSimTrie
import Verif.EffCalls
import Verif.EffCallsList
import Verif.EffCallsTwt
import Verif.EffCallsNode
import Verif.EffCallsTrie
import Verif.EffSpec
import Verif.EffApi
import Verif.EffMem
import Verif.EffPure
import Verif.Props.Effects
import Verif.Props.Sharing
import Verif.EffSame
import Verif.EffSameList
import Verif.EffSameNode
import Verif.OrderSpec
import Verif.EffOrder
import Verif.EffSameApi
import Verif.Props.Order
import Verif.JointKeep
import Verif.EffKeep
import Verif.ThreadSpec
import Verif.Rename
import Verif.RenameList
import Verif.RenameNode
import Verif.ThreadLemmas
import Verif.Threads
import Verif.ThreadExamples
import Verif.Props.Threads
import Verif.TwtRed
import Verif.TwtTotal
import Verif.TameNeeded
import Verif.TameFlip
import Verif.CombineSpec
import Verif.CombineLemmas
import Verif.Props.Combine
import Verif.LawlessSpec
import Verif.Lawless
import Verif.Props.Lawless
import Verif.KeyCalls
import Verif.KeyCallsSpec
import Verif.KeyCallsLemmas
import Verif.KeyCallsInsert
import Verif.KeyCallsTrie
import Verif.KeyCallsPure
import Verif.Props.KeyCalls
import Verif.Props.Needed
import Verif.Fits
import Verif.FitsList
import Verif.FitsLoop
import Verif.FitsNode
import Verif.FitsTrie
import Verif.FitsCall
import Verif.RcSpec
import Verif.Rc
import Verif.RcExec
import Verif.Props.Memory
import Verif.SameList
import Verif.SameNode
import Verif.Props.Ask
import Verif.VisitSpec
import Verif.VisitLemmas
import Verif.Props.VisitOrder
import Verif.GrownSpec
import Verif.GrownLemmas
import Verif.GrownShape
import Verif.Props.Grown
import Verif.ChaosSpec
import Verif.ChaosBase
import Verif.ChaosLemmas
import Verif.ChaosInsert
import Verif.ChaosBulk
import Verif.Props.Chaos
import Verif.Stay
import Verif.StayTables
import Verif.StayList
import Verif.StayLoop
import Verif.StayNode
import Verif.StayInsert
import Verif.ArcFind
import Verif.StayFind
import Verif.StayTrie
import Verif.Props.Pointers
import Verif.Sub
import Verif.SubList
import Verif.SubNode
import Verif.SubRun
import Verif.SetEff
import Verif.SetEffSpec
import Verif.SetEffLemmas
import Verif.SetEffMem
import Verif.Props.SetEffects
import Verif.SetOrder
import Verif.Props.SetOrder
import Verif.Ctors
import Verif.Props.Recipes
import Verif.ExprSpec
import Verif.ExprLemmas
import Verif.Props.Exprs
import Verif.MatchSpec
import Verif.MatchLemmas
import Verif.MatchNode
import Verif.MatchLoop
import Verif.MatchTree
import Verif.MatchTrie
import Verif.MatchTwt
import Verif.Props.Pairing
import Verif.SetChaosSpec
import Verif.SetChaos
import Verif.Props.SetChaos
