import Verif.Co.Examples
import Verif.Co.Faults
import Verif.Co.FileModel
import Verif.Co.FileProps
import Verif.Co.HearLemmas
import Verif.Co.HearProps
import Verif.Co.Ip6Lemmas
import Verif.Co.Ip6Props
import Verif.Co.NameLemmas
import Verif.Co.NameProps
import Verif.Co.OnceProps
import Verif.Co.ReplyLemmas
import Verif.Co.ReplyProps
import Verif.Co.SafeProps
import Verif.Co.ServerModel
import Verif.Co.SessionLemmas
import Verif.Co.SessionProps
import Verif.Co.TextModel
import Verif.Deadwood.AclModel
import Verif.Deadwood.AclParse
import Verif.Deadwood.AclProps
import Verif.Deadwood.AliasAlone
import Verif.Deadwood.AliasFinal
import Verif.Deadwood.AliasLemmas
import Verif.Deadwood.AliasMake
import Verif.Deadwood.AliasModel
import Verif.Deadwood.AliasProps
import Verif.Deadwood.AnyDissect
import Verif.Deadwood.AnyLemmas
import Verif.Deadwood.AnyPacket
import Verif.Deadwood.AnyProps
import Verif.Deadwood.AnyRefer
import Verif.Deadwood.AnySafe
import Verif.Deadwood.AnySame
import Verif.Deadwood.AnyTrust
import Verif.Deadwood.AnyTrustProps
import Verif.Deadwood.BailiwickProps
import Verif.Deadwood.BlockMakeModel
import Verif.Deadwood.BlockMakeProps
import Verif.Deadwood.BlockModel
import Verif.Deadwood.BlockProps
import Verif.Deadwood.BlockQueryProps
import Verif.Deadwood.BlockTextProps
import Verif.Deadwood.ClockModel
import Verif.Deadwood.ClockProps
import Verif.Deadwood.CompLemmas
import Verif.Deadwood.CompModel
import Verif.Deadwood.CompareProps
import Verif.Deadwood.CompressData
import Verif.Deadwood.CompressDropOut
import Verif.Deadwood.CompressDropProps
import Verif.Deadwood.CompressFits
import Verif.Deadwood.CompressLemmas
import Verif.Deadwood.CompressPacket
import Verif.Deadwood.CompressPacketProps
import Verif.Deadwood.CompressProps
import Verif.Deadwood.CompressSafe
import Verif.Deadwood.CompressSpec
import Verif.Deadwood.ConfigModel
import Verif.Deadwood.ConfigProps
import Verif.Deadwood.CutLemmas
import Verif.Deadwood.CutProps
import Verif.Deadwood.DecompPacket
import Verif.Deadwood.DecompPacketProps
import Verif.Deadwood.DecompProps
import Verif.Deadwood.DecompSafe
import Verif.Deadwood.DepthLemmas
import Verif.Deadwood.DepthModel
import Verif.Deadwood.DepthProps
import Verif.Deadwood.DictLemmas
import Verif.Deadwood.DictModel
import Verif.Deadwood.DictProps
import Verif.Deadwood.DissectAnswer
import Verif.Deadwood.DissectCases
import Verif.Deadwood.DissectChain
import Verif.Deadwood.DissectFindings
import Verif.Deadwood.DissectFinish
import Verif.Deadwood.DissectKeep
import Verif.Deadwood.DissectList
import Verif.Deadwood.DissectModel
import Verif.Deadwood.DissectName
import Verif.Deadwood.DissectPoison
import Verif.Deadwood.DissectProps
import Verif.Deadwood.DissectRefer
import Verif.Deadwood.DissectStep
import Verif.Deadwood.DissectStuck
import Verif.Deadwood.DissectView
import Verif.Deadwood.DnsStr2Props
import Verif.Deadwood.DnsStr3Props
import Verif.Deadwood.DnsStrLemmas
import Verif.Deadwood.DnsStrModel
import Verif.Deadwood.DnsStrProps
import Verif.Deadwood.FilaModel
import Verif.Deadwood.FilaProps
import Verif.Deadwood.FromCacheExamples
import Verif.Deadwood.FromCacheLemmas
import Verif.Deadwood.FromCacheModel
import Verif.Deadwood.FromCacheProps
import Verif.Deadwood.FromCacheReply
import Verif.Deadwood.FromCacheRun
import Verif.Deadwood.FromCacheSession
import Verif.Deadwood.FromCacheSim
import Verif.Deadwood.GlueAsk
import Verif.Deadwood.GlueLemmas
import Verif.Deadwood.GlueNear
import Verif.Deadwood.GlueProps
import Verif.Deadwood.GlueRun
import Verif.Deadwood.HalfSipModel
import Verif.Deadwood.HalfSipProps
import Verif.Deadwood.HashFileLemmas
import Verif.Deadwood.HashFileModel
import Verif.Deadwood.HashFileProps
import Verif.Deadwood.HashLemmas
import Verif.Deadwood.HashModel
import Verif.Deadwood.HashProps
import Verif.Deadwood.HashRefine
import Verif.Deadwood.HashRestart
import Verif.Deadwood.HashRun
import Verif.Deadwood.HashSpecLemmas
import Verif.Deadwood.HeaderModel
import Verif.Deadwood.HeaderProps
import Verif.Deadwood.IncomingEq
import Verif.Deadwood.IncomingExamples
import Verif.Deadwood.IncomingLemmas
import Verif.Deadwood.IncomingModel
import Verif.Deadwood.IncomingProps
import Verif.Deadwood.IncomingReply
import Verif.Deadwood.InflightCapProps
import Verif.Deadwood.InflightModel
import Verif.Deadwood.InflightProps
import Verif.Deadwood.LogModel
import Verif.Deadwood.LogProps
import Verif.Deadwood.MararcDefaults
import Verif.Deadwood.MararcLemmas
import Verif.Deadwood.MararcModel
import Verif.Deadwood.MararcProps
import Verif.Deadwood.MararcStates
import Verif.Deadwood.Name2Props
import Verif.Deadwood.NameProps
import Verif.Deadwood.NearestProps
import Verif.Deadwood.NsModel
import Verif.Deadwood.NsProps
import Verif.Deadwood.ReferralProps
import Verif.Deadwood.RemoteLemmas
import Verif.Deadwood.RemoteModel
import Verif.Deadwood.RemoteProps
import Verif.Deadwood.ReplyLemmas
import Verif.Deadwood.ReplyMessage
import Verif.Deadwood.ReplyMessageProps
import Verif.Deadwood.ReplyModel
import Verif.Deadwood.ReplyProps
import Verif.Deadwood.RgLemmas
import Verif.Deadwood.RgModel
import Verif.Deadwood.RgProps
import Verif.Deadwood.ServersFull
import Verif.Deadwood.ServersLemmas
import Verif.Deadwood.ServersModel
import Verif.Deadwood.ServersProps
import Verif.Deadwood.Str2Lemmas
import Verif.Deadwood.Str2Model
import Verif.Deadwood.Str2Props
import Verif.Deadwood.StrLemmas
import Verif.Deadwood.StrModel
import Verif.Deadwood.StrProps
import Verif.Deadwood.SynthModel
import Verif.Deadwood.SynthProps
import Verif.Deadwood.SynthReplyLemmas
import Verif.Deadwood.SynthReplyModel
import Verif.Deadwood.SynthReplyProps
import Verif.Deadwood.TcpForwardProps
import Verif.Deadwood.TcpModel
import Verif.Deadwood.TcpProps
import Verif.Deadwood.TrustExamples
import Verif.Deadwood.TrustInv
import Verif.Deadwood.TrustLemmas
import Verif.Deadwood.TrustModel
import Verif.Deadwood.TrustMsg
import Verif.Deadwood.TrustPacket
import Verif.Deadwood.TrustProps
import Verif.Deadwood.TrustRun
import Verif.Interop.Carry
import Verif.Interop.CarryProps
import Verif.Interop.Kept
import Verif.Interop.KeptExamples
import Verif.Interop.KeptProps
import Verif.Interop.Refer
import Verif.Interop.ReferExamples
import Verif.Mara.AclModel
import Verif.Mara.AclProps
import Verif.Mara.AclRefuse
import Verif.Mara.AnyLookup
import Verif.Mara.AnyServer
import Verif.Mara.AnyServerProps
import Verif.Mara.AnyStore
import Verif.Mara.BigHashAdd
import Verif.Mara.BigHashExact
import Verif.Mara.BigHashGiven
import Verif.Mara.BigHashLoad
import Verif.Mara.BigHashModel
import Verif.Mara.BigHashProps
import Verif.Mara.BigHashSteps
import Verif.Mara.CompAll
import Verif.Mara.CompClear
import Verif.Mara.CompExamples
import Verif.Mara.CompLemmas
import Verif.Mara.CompModel
import Verif.Mara.CompName
import Verif.Mara.CompPacket
import Verif.Mara.CompProps
import Verif.Mara.CompRec
import Verif.Mara.CompUnique
import Verif.Mara.Csv2Addr
import Verif.Mara.Csv2Faults
import Verif.Mara.Csv2Fields
import Verif.Mara.Csv2File
import Verif.Mara.Csv2Ip6
import Verif.Mara.Csv2Lines
import Verif.Mara.Csv2Model
import Verif.Mara.Csv2Names
import Verif.Mara.Csv2Prefix
import Verif.Mara.Csv2Props
import Verif.Mara.Csv2Read
import Verif.Mara.Csv2Record
import Verif.Mara.Csv2Stream
import Verif.Mara.Csv2Strings
import Verif.Mara.Csv2Utf8
import Verif.Mara.DecompLemmas
import Verif.Mara.DecompModel
import Verif.Mara.DecompProps
import Verif.Mara.DecompRec
import Verif.Mara.DecompRound
import Verif.Mara.DoorModel
import Verif.Mara.DoorProps
import Verif.Mara.DuendeLoopModel
import Verif.Mara.DuendeLoopProps
import Verif.Mara.DuendeModel
import Verif.Mara.DuendeProps
import Verif.Mara.FetchLine
import Verif.Mara.FetchModel
import Verif.Mara.FetchNames
import Verif.Mara.FetchProps
import Verif.Mara.FetchRun
import Verif.Mara.FetchSafe
import Verif.Mara.FetchSafeProps
import Verif.Mara.FetchText
import Verif.Mara.GetlineExamples
import Verif.Mara.GetlineLemmas
import Verif.Mara.GetlineModel
import Verif.Mara.GetlineProps
import Verif.Mara.GetlineTail
import Verif.Mara.HashExact
import Verif.Mara.HashModel
import Verif.Mara.HashProps
import Verif.Mara.JsList
import Verif.Mara.JsModel
import Verif.Mara.JsProps
import Verif.Mara.JsSearch
import Verif.Mara.LinkExact
import Verif.Mara.LinkModel
import Verif.Mara.LinkProps
import Verif.Mara.LogModel
import Verif.Mara.LogProps
import Verif.Mara.LookupExact
import Verif.Mara.LookupFindings
import Verif.Mara.LookupFront
import Verif.Mara.LookupLemmas
import Verif.Mara.LookupLevels
import Verif.Mara.LookupModel
import Verif.Mara.LookupProps
import Verif.Mara.LookupSound
import Verif.Mara.LookupZone
import Verif.Mara.MirrorProps
import Verif.Mara.PlainVia
import Verif.Mara.RareExamples
import Verif.Mara.RareLemmas
import Verif.Mara.RareLoc
import Verif.Mara.RareModel
import Verif.Mara.RareNaptr
import Verif.Mara.RareNsap
import Verif.Mara.RareProps
import Verif.Mara.RareWks
import Verif.Mara.RcBridge
import Verif.Mara.RcExamples
import Verif.Mara.RcLemmas
import Verif.Mara.RcModel
import Verif.Mara.RcParse
import Verif.Mara.RcProps
import Verif.Mara.RcRead
import Verif.Mara.ReplyAll
import Verif.Mara.ReplyAnswer
import Verif.Mara.ReplyExamples
import Verif.Mara.ReplyFit
import Verif.Mara.ReplyHeap
import Verif.Mara.ReplyLong
import Verif.Mara.ReplyLoop
import Verif.Mara.ReplyMask
import Verif.Mara.ReplyModel
import Verif.Mara.ReplyProps
import Verif.Mara.ReplySent
import Verif.Mara.ReplyShown
import Verif.Mara.ReplySqueeze
import Verif.Mara.ReplyTotal
import Verif.Mara.ReplyTurn
import Verif.Mara.ReplyWalk
import Verif.Mara.SerialModel
import Verif.Mara.SerialProps
import Verif.Mara.ServeModel
import Verif.Mara.ServeProps
import Verif.Mara.ServeRead
import Verif.Mara.ServeRun
import Verif.Mara.ServeZone
import Verif.Mara.ServerAll
import Verif.Mara.ServerExamples
import Verif.Mara.ServerHold
import Verif.Mara.ServerMask
import Verif.Mara.ServerModel
import Verif.Mara.ServerProps
import Verif.Mara.ServerReady
import Verif.Mara.ServerStep
import Verif.Mara.ServerText
import Verif.Mara.ServerTurn
import Verif.Mara.StampModel
import Verif.Mara.StampProps
import Verif.Mara.StarModel
import Verif.Mara.StarSent
import Verif.Mara.TextToolsModel
import Verif.Mara.TextToolsProps
import Verif.Mara.ZoneExact
import Verif.Mara.ZoneModel
import Verif.Mara.ZoneProps
import Verif.Mara.ZoneRead
import Verif.Spec.Acl4
import Verif.Spec.AliasChain
import Verif.Spec.Answer
import Verif.Spec.Believe
import Verif.Spec.BlockFile
import Verif.Spec.Cache
import Verif.Spec.Clock
import Verif.Spec.Daemon
import Verif.Spec.Dict
import Verif.Spec.Door
import Verif.Spec.FileLines
import Verif.Spec.Glue
import Verif.Spec.HalfSip
import Verif.Spec.Header
import Verif.Spec.Host
import Verif.Spec.Incoming
import Verif.Spec.Ip6
import Verif.Spec.JStr
import Verif.Spec.Journal
import Verif.Spec.Load
import Verif.Spec.Log
import Verif.Spec.Message
import Verif.Spec.Mirror
import Verif.Spec.NameEq
import Verif.Spec.Names
import Verif.Spec.Net
import Verif.Spec.OneFile
import Verif.Spec.Packed
import Verif.Spec.Packet
import Verif.Spec.Pointers
import Verif.Spec.Portable
import Verif.Spec.RadioGatun
import Verif.Spec.Rare
import Verif.Spec.RcDefaults
import Verif.Spec.RcFile
import Verif.Spec.RcGrammar
import Verif.Spec.Refusal
import Verif.Spec.Reply
import Verif.Spec.Script
import Verif.Spec.Serial
import Verif.Spec.Serve
import Verif.Spec.Served
import Verif.Spec.Servers
import Verif.Spec.Shown
import Verif.Spec.Stamp
import Verif.Spec.Transfer
import Verif.Spec.Trust
import Verif.Spec.Unpacked
import Verif.Spec.Utf8
import Verif.Spec.Wire
import Verif.Spec.Word
import Verif.Spec.Zone
import Verif.Spec.ZoneFile
import Verif.Spec.ZoneText
