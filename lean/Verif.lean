import Verif.Model.Bytes
import Verif.Model.Params
import Verif.Model.Address
import Verif.Model.Keccak
import Verif.Model.Hash
import Verif.Model.Wots
import Verif.Model.Tree
import Verif.Model.Core
import Verif.Model.Api
import Verif.Spec.Rfc8391
import Verif.Spec.Registry
import Verif.Spec.Keys
import Verif.Proof.Bytes
import Verif.Proof.Good
import Verif.Proof.Hash
import Verif.Proof.Wots
import Verif.Proof.Ltree
import Verif.Proof.Treehash
import Verif.Proof.Core
import Verif.Proof.ShakeLen
import Verif.Proof.Verify
import Verif.Props.Params
import Verif.Props.Basic
import Verif.Props.Wots
import Verif.Props.Tree
import Verif.Props.Sign
import Verif.Props.Open
import Verif.Props.History
import Verif.Props.Binding
import Verif.Props.Toy
import Verif.Spec.Fips202
import Verif.Proof.KeccakF
import Verif.Proof.Shake
import Verif.Props.Keccak
import Verif.Model.RandomBytes
import Verif.Props.RandomBytes
import Verif.Model.Ui
import Verif.Props.Ui
import Verif.Model.Bds
import Verif.Model.FastCore
import Verif.Proof.BdsSched
import Verif.Proof.BdsStack
import Verif.Proof.BdsUpdate
import Verif.Proof.BdsRound
import Verif.Proof.BdsBuild
import Verif.Proof.FastState
import Verif.Proof.FastBody
import Verif.Proof.FastXmss
import Verif.Spec.FastKeys
import Verif.Props.Fast
import Verif.Proof.BdsSafe
import Verif.Proof.FastGen
import Verif.Props.FastTradeoff
import Verif.Proof.MtSched
import Verif.Proof.MtLoop
import Verif.Proof.MtStep
import Verif.Proof.MtTraverse
import Verif.Proof.MtSign
import Verif.Proof.MtKeygen
import Verif.Proof.MtLast
import Verif.Props.FastMt
import Verif.Proof.MtBad
import Verif.Proof.MtBadRun
import Verif.Proof.MtBadSign
import Verif.Props.FastMtFails
import Verif.Props.Forgery
import Verif.Proof.OpenSame
import Verif.Props.FastHistory
import Verif.Model.UiFast
import Verif.Props.UiFast
import Verif.Model.UiConcurrent
import Verif.Props.UiConcurrent
import Verif.Spec.Standard
import Verif.Props.Standard
import Verif.Model.KeygenOs
import Verif.Props.KeygenOs
import Verif.Model.UiCrash
import Verif.Props.Crash
import Verif.Props.CrashFast
import Verif.Props.CrashUsable
import Verif.Props.CrashStale
import Verif.Proof.FastAny
import Verif.Props.FastDamaged
import Verif.Props.StrongForgery
import Verif.Model.RandomThreads
import Verif.Props.RandomThreads
import Verif.Props.FastDamagedUb
import Verif.Props.FastTradeoffExact
import Verif.Props.WotsAny
import Verif.Props.StrongForgeryFast
import Verif.Props.SelfTest
import Verif.Props.SelfTestToy
import Verif.Props.Reuse
import Verif.Props.ReuseFast
import Verif.Model.Alias
import Verif.Props.Alias
import Verif.Props.AliasOpen
import Verif.Props.AliasToy
import Verif.Props.AliasFast
import Verif.Props.WrongFamily
import Verif.Props.MixedBuilds
import Verif.Props.Vectors
import Verif.Props.Speed
import Verif.Model.SignThreads
import Verif.Props.SignThreads
import Verif.Props.SecretsPrf
import Verif.Props.HashCalls
import Verif.Model.TraceFast
import Verif.Proof.TraceFast
import Verif.Proof.TraceRel
import Verif.Proof.TraceSign
import Verif.Proof.TraceRelMt
import Verif.Proof.TraceKeygen
import Verif.Proof.TraceFastSign
import Verif.Props.HashCallsFast
import Verif.Props.HashCallsFastSame
import Verif.Props.HashCallsWindow
import Verif.Props.HashCallsEnd
import Verif.Props.HashInputs
import Verif.Props.UiErrors
import Verif.Props.HashInputsFast
import Verif.Props.SignCrash
import Verif.Props.IndexField
import Verif.Props.IndexFieldFast
import Verif.Props.MessageBound
import Verif.Props.LowUse
import Verif.Model.LowFast
import Verif.Proof.LowFastRel
import Verif.Proof.LowFastPut
import Verif.Proof.LowFastLeaf
import Verif.Proof.LowFastInit
import Verif.Proof.LowFastOps
import Verif.Proof.LowFastPick
import Verif.Proof.LowFastRound
import Verif.Proof.LowFastSer
import Verif.Proof.LowFastSign
import Verif.Proof.LowFastXmss
import Verif.Proof.LowFastTop
import Verif.Proof.LowFastSwap
import Verif.Proof.LowFastDeep
import Verif.Proof.LowFastMt
import Verif.Proof.LowFastMtLoop
import Verif.Proof.LowFastMtCopy
import Verif.Proof.LowFastMtSign
import Verif.Proof.LowFastMtTop
import Verif.Proof.LowFastMtKey
import Verif.Props.LowFast
import Verif.Proof.LowKeccak
import Verif.Proof.LowKeccakUndef
import Verif.Props.LowKeccak
import Verif.Model.LowUi
import Verif.Props.LowUi
import Verif.Model.LowRandom
import Verif.Props.LowRandom
import Verif.Props.ManyKeys
import Verif.Props.KeyProgram
import Verif.Props.LowTest
import Verif.Props.LowVectors
