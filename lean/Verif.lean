import Verif.Props.Epb
import Verif.Props.Tlv
import Verif.Props.TlvSafety
import Verif.Props.Sei
import Verif.Props.Nalu
import Verif.Props.NaluValid
import Verif.Props.NaluList
import Verif.Props.Version
import Verif.Props.Report
import Verif.Props.Plugin
import Verif.Props.Threaded
import Verif.Props.SignQueue
import Verif.Props.SignHist
import Verif.Props.SignCounter
import Verif.Props.SignParts
import Verif.Props.SignRecur
import Verif.Props.SignSettings
import Verif.Props.AuthCounter
import Verif.Props.AuthHang
import Verif.Props.AuthConform
import Verif.Props.AuthKey
import Verif.Props.AuthMatch
import Verif.Props.AuthForge
import Verif.Proofs.AuthSteps
import Verif.Props.AuthUnsigned
import Verif.Proofs.AuthPaint
import Verif.Proofs.AuthRep
import Verif.Props.AuthWorst
import Verif.Proofs.AuthKeyInv
import Verif.Props.AuthKeyChange
import Verif.Props.Axis
import Verif.Proofs.AuthReal
import Verif.Props.AuthStrings
import Verif.Props.AuthCount
import Verif.Proofs.AuthSegment
import Verif.Proofs.AuthTidy
import Verif.Proofs.AuthKinds
import Verif.Proofs.AuthCert
import Verif.Proofs.AuthUsed
import Verif.Proofs.AuthAll
import Verif.Proofs.AuthVouch
import Verif.Proofs.AuthAlgo
import Verif.Proofs.AuthContent
import Verif.Props.AuthBacked
import Verif.Props.AuthSame
import Verif.Props.AuthSigned
import Verif.Proofs.FlowHash
import Verif.Proofs.FlowList
import Verif.Proofs.FlowRound
import Verif.Proofs.FlowScan
import Verif.Proofs.FlowSync
import Verif.Proofs.FlowSei
import Verif.Proofs.FlowEarly
import Verif.Proofs.FlowTlv
import Verif.Proofs.FlowSigner
import Verif.Spec.Flow
import Verif.Proofs.SignAdds
import Verif.Proofs.FlowStream
import Verif.Proofs.FlowOrder
import Verif.Props.AuthFlow
import Verif.Props.AuthReset
import Verif.Props.AuthSpare
import Verif.Props.AuthJoin
import Verif.Proofs.TraceTlv
import Verif.Proofs.TraceList
import Verif.Proofs.TraceRound
import Verif.Proofs.AuthTrace
import Verif.Model.Legacy
import Verif.Props.LegacyDemo
import Verif.Proofs.LegacyFrame
import Verif.Proofs.LegacyDots
import Verif.Proofs.LegacyCall
import Verif.Proofs.LegacyGood
import Verif.Props.LegacyMarks
import Verif.Props.LegacyGood
import Verif.Props.LegacyBlocked
import Verif.Props.LegacyFalse
import Verif.Props.LegacyForged
import Verif.Spec.Gop
import Verif.Proofs.LegacyQueue
import Verif.Proofs.LegacyTie
import Verif.Proofs.LegacyTied
import Verif.Proofs.LegacyStored
import Verif.Props.LegacyCovered
import Verif.Props.LegacyBytes
import Verif.Model.Keys
import Verif.Model.Digest
import Verif.Spec.Keys
import Verif.Spec.Digest
import Verif.Proofs.Keys
import Verif.Proofs.KeysRun
import Verif.Props.Keys
import Verif.Props.Digest
import Verif.Model.Fetch
import Verif.Spec.Total
import Verif.Proofs.FetchTotal
import Verif.Proofs.FetchStep
import Verif.Proofs.FetchLatest
import Verif.Props.Fetch
import Verif.Props.FetchLatest
import Verif.Model.Golden
import Verif.Spec.Golden
import Verif.Props.Golden
import Verif.Proofs.NoMismatch
import Verif.Props.NoMismatch
import Verif.Model.ReportMem
import Verif.Spec.ReportMem
import Verif.Proofs.ReportMem
import Verif.Proofs.ReportCopy
import Verif.Proofs.ReportSess
import Verif.Props.ReportMem
import Verif.Spec.Product
import Verif.Proofs.ProductTlv
import Verif.Proofs.ProductInv
import Verif.Props.AuthProduct
import Verif.Props.Recorded
import Verif.Props.RecordedMore
import Verif.Spec.Damage
import Verif.Proofs.FlowLoss
import Verif.Proofs.FlowBad
import Verif.Proofs.FlowAny
import Verif.Proofs.FlowGap
import Verif.Props.AuthDamage
import Verif.Props.AuthLoss
import Verif.Spec.Old
import Verif.Proofs.OldList
import Verif.Proofs.OldGop
import Verif.Proofs.OldRound
import Verif.Proofs.OldStep
import Verif.Proofs.OldStream
import Verif.Proofs.OldTlv
import Verif.Proofs.OldBytes
import Verif.Proofs.OldStart
import Verif.Proofs.OldRun
import Verif.Props.OldFlow
import Verif.Props.OldDamage
import Verif.Proofs.OldJoin
import Verif.Props.OldMiddle
import Verif.Model.KeyGen
import Verif.Spec.KeyGen
import Verif.Props.KeyGen
import Verif.Spec.Gap
import Verif.Proofs.FlowLost
import Verif.Props.AuthGap
import Verif.Model.Life
import Verif.Spec.Life
import Verif.Proofs.Life
import Verif.Proofs.LifeStop
import Verif.Proofs.LifeHist
import Verif.Props.Life
import Verif.Model.PlugMem
import Verif.Spec.PlugMem
import Verif.Proofs.PlugMem
import Verif.Proofs.PlugMemRun
import Verif.Props.PlugMem
import Verif.Props.SignRoom
import Verif.Props.Payload
import Verif.Props.Create
import Verif.Props.Spoiled
import Verif.Props.SigSize
import Verif.Props.Held
import Verif.Props.SigNever
import Verif.Props.Show
import Verif.Props.ShowOwn
import Verif.Props.ShowSession
import Verif.Props.SignGolden
import Verif.Props.SignLevel
import Verif.Props.SignAgain
