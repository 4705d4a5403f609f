import Verif.Adc.BackLemmas
import Verif.Adc.Buffer
import Verif.Adc.Conn
import Verif.Adc.Escape
import Verif.Adc.ExtGroup
import Verif.Adc.FeatureMemory
import Verif.Adc.Features
import Verif.Adc.Floats
import Verif.Adc.Ids
import Verif.Adc.Left
import Verif.Adc.LeftLemmas
import Verif.Adc.LineLemmas
import Verif.Adc.ListMemory
import Verif.Adc.ListMemoryLemmas
import Verif.Adc.Marshal
import Verif.Adc.MarshalLemmas
import Verif.Adc.Memory
import Verif.Adc.Messages
import Verif.Adc.Own
import Verif.Adc.OwnConn
import Verif.Adc.PacketVal
import Verif.Adc.Packets
import Verif.Adc.Pid
import Verif.Adc.Shown
import Verif.Adc.Values
import Verif.Adc.WireLemmas
import Verif.Addr.Addr
import Verif.Addr.Real
import Verif.Conformance.Adc
import Verif.Conformance.AdcBuffer
import Verif.Conformance.AdcLeft
import Verif.Conformance.AdcOwn
import Verif.Conformance.AdcOwnConn
import Verif.Conformance.Hashes
import Verif.Conformance.HookedMemory
import Verif.Conformance.Line
import Verif.Conformance.Mixed
import Verif.Conformance.More
import Verif.Conformance.Nmdc
import Verif.Conformance.NmdcOwn
import Verif.Conformance.ReadFull
import Verif.Conformance.Reader
import Verif.Conformance.Url
import Verif.Conformance.WriterMemory
import Verif.Conformance.Zlib
import Verif.Go.Base32
import Verif.Go.Base32AnyLemmas
import Verif.Go.Base32Lemmas
import Verif.Go.Base64
import Verif.Go.Basic
import Verif.Go.Charmap
import Verif.Go.Deflate
import Verif.Go.DeflateBlocks
import Verif.Go.DeflateLemmas
import Verif.Go.DeflateSpec
import Verif.Go.DeflateTables
import Verif.Go.Float
import Verif.Go.FloatRound
import Verif.Go.FloatText
import Verif.Go.FloatUnder
import Verif.Go.Html
import Verif.Go.HtmlPlace
import Verif.Go.HtmlTable
import Verif.Go.HuffmanLemmas
import Verif.Go.HuffmanWords
import Verif.Go.Inflate
import Verif.Go.Numbers
import Verif.Go.Pem
import Verif.Go.PemLemmas
import Verif.Go.Sha256
import Verif.Go.Slices
import Verif.Go.Unicode
import Verif.Go.Url
import Verif.Go.UrlLemmas
import Verif.Go.Utf8
import Verif.Go.Words
import Verif.Keyprint.Keyprint
import Verif.Keyprint.PemFile
import Verif.Lineproto.Hooked
import Verif.Lineproto.HookedMemory
import Verif.Lineproto.Memory
import Verif.Lineproto.MemoryLemmas
import Verif.Lineproto.Reader
import Verif.Lineproto.ReaderCut
import Verif.Lineproto.ReaderLemmas
import Verif.Lineproto.ReaderOps
import Verif.Lineproto.ReaderSafe
import Verif.Lineproto.ReaderSmall
import Verif.Lineproto.ReaderTotal
import Verif.Lineproto.Writer
import Verif.Lineproto.WriterLemmas
import Verif.Lineproto.WriterMemory
import Verif.Lineproto.WriterMemoryLemmas
import Verif.Lineproto.WriterPanic
import Verif.Lineproto.WriterSafe
import Verif.Lineproto.WriterTrace
import Verif.Lineproto.WriterTraceLemmas
import Verif.Lineproto.Zlib
import Verif.Lineproto.ZlibBroken
import Verif.Lineproto.ZlibLaw
import Verif.Lineproto.ZlibLemmas
import Verif.Lineproto.ZlibParse
import Verif.Lineproto.ZlibSays
import Verif.Lineproto.ZlibSum
import Verif.Lineproto.ZlibWriter
import Verif.Nmdc.Chat
import Verif.Nmdc.ChatLemmas
import Verif.Nmdc.Ctm
import Verif.Nmdc.EntityNames
import Verif.Nmdc.ExactLemmas
import Verif.Nmdc.Extensions
import Verif.Nmdc.FormLemmas
import Verif.Nmdc.Left
import Verif.Nmdc.Memory
import Verif.Nmdc.Message
import Verif.Nmdc.MyInfo
import Verif.Nmdc.NarrowLemmas
import Verif.Nmdc.NumLemmas
import Verif.Nmdc.Own
import Verif.Nmdc.OwnLemmas
import Verif.Nmdc.PanicLemmas
import Verif.Nmdc.Reader
import Verif.Nmdc.ReaderLemmas
import Verif.Nmdc.ReadsLemmas
import Verif.Nmdc.Search
import Verif.Nmdc.SearchLemmas
import Verif.Nmdc.Shared
import Verif.Nmdc.Shown
import Verif.Nmdc.Simple
import Verif.Nmdc.SimpleLemmas
import Verif.Nmdc.Types
import Verif.Nmdc.Utils
import Verif.Nmdc.Wire
import Verif.Nmdc.Writer
import Verif.Props.AdcAccepts
import Verif.Props.AdcAnyMessage
import Verif.Props.AdcBack
import Verif.Props.AdcConn
import Verif.Props.AdcFeatures
import Verif.Props.AdcFloats
import Verif.Props.AdcGroups
import Verif.Props.AdcLeft
import Verif.Props.AdcLines
import Verif.Props.AdcMarshalTotal
import Verif.Props.AdcMemory
import Verif.Props.AdcMessages
import Verif.Props.AdcOwn
import Verif.Props.AdcOwnConn
import Verif.Props.AdcOwnLibrary
import Verif.Props.AdcPacketVal
import Verif.Props.AdcPackets
import Verif.Props.AdcPacketsBack
import Verif.Props.AdcPacketsIff
import Verif.Props.AdcPanics
import Verif.Props.AdcRelay
import Verif.Props.AdcSafety
import Verif.Props.AdcSalt
import Verif.Props.AdcSmall
import Verif.Props.AdcText
import Verif.Props.AdcWire
import Verif.Props.Addresses
import Verif.Props.CodePages
import Verif.Props.ConnTotal
import Verif.Props.Entities
import Verif.Props.FeatureMemory
import Verif.Props.HashVar
import Verif.Props.Identifiers
import Verif.Props.KeyPrintSha
import Verif.Props.KeyPrints
import Verif.Props.LineDefault
import Verif.Props.LineDuplex
import Verif.Props.LineHooks
import Verif.Props.LineHooksMemory
import Verif.Props.LineMemory
import Verif.Props.LineReader
import Verif.Props.LineReaderCut
import Verif.Props.LineReaderPanic
import Verif.Props.LineReaderTotal
import Verif.Props.LineTimeouts
import Verif.Props.LineWriter
import Verif.Props.LineWriterLevel
import Verif.Props.LineWriterMemory
import Verif.Props.LineWriterPanic
import Verif.Props.ListMemory
import Verif.Props.ListPrograms
import Verif.Props.NmdcBack
import Verif.Props.NmdcChat
import Verif.Props.NmdcConn
import Verif.Props.NmdcCtm
import Verif.Props.NmdcDrops
import Verif.Props.NmdcExact
import Verif.Props.NmdcExactInfo
import Verif.Props.NmdcExtensions
import Verif.Props.NmdcLeft
import Verif.Props.NmdcLines
import Verif.Props.NmdcMemory
import Verif.Props.NmdcMessages
import Verif.Props.NmdcMyInfo
import Verif.Props.NmdcNumbers
import Verif.Props.NmdcOpenRefs
import Verif.Props.NmdcOwnCallbacks
import Verif.Props.NmdcOwnConn
import Verif.Props.NmdcOwnReader
import Verif.Props.NmdcOwnWriter
import Verif.Props.NmdcPanics
import Verif.Props.NmdcReader
import Verif.Props.NmdcReaderHooks
import Verif.Props.NmdcReads
import Verif.Props.NmdcRefs
import Verif.Props.NmdcRelay
import Verif.Props.NmdcRelayLemmas
import Verif.Props.NmdcReported
import Verif.Props.NmdcRetry
import Verif.Props.NmdcReuse
import Verif.Props.NmdcSearch
import Verif.Props.NmdcShared
import Verif.Props.NmdcSimple
import Verif.Props.NmdcText
import Verif.Props.NmdcUnmarshal
import Verif.Props.NmdcValid
import Verif.Props.NmdcValidLeft
import Verif.Props.NmdcValidReader
import Verif.Props.NmdcWire
import Verif.Props.PemFiles
import Verif.Props.PrivateIds
import Verif.Props.RealAddresses
import Verif.Props.Registry
import Verif.Props.Shown
import Verif.Props.ShownLemmas
import Verif.Props.TigerPieces
import Verif.Props.TreeHash
import Verif.Props.TreeHashAny
import Verif.Props.TreeMemory
import Verif.Props.WriterKept
import Verif.Props.ZlibConn
import Verif.Props.ZlibCut
import Verif.Props.ZlibExact
import Verif.Props.ZlibFormat
import Verif.Props.ZlibRefuse
import Verif.Props.ZlibTables
import Verif.Props.ZlibWant
import Verif.Registry.Registry
import Verif.Spec.AdcBack
import Verif.Spec.AdcLeft
import Verif.Spec.AdcOwn
import Verif.Spec.AdcPacket
import Verif.Spec.AdcWire
import Verif.Spec.Base32
import Verif.Spec.Base64
import Verif.Spec.Decimal
import Verif.Spec.Float
import Verif.Spec.HashVar
import Verif.Spec.Kept
import Verif.Spec.Lines
import Verif.Spec.NmdcBack
import Verif.Spec.NmdcLine
import Verif.Spec.NmdcOwn
import Verif.Spec.NmdcReads
import Verif.Spec.NmdcRelay
import Verif.Spec.NmdcReuse
import Verif.Spec.NmdcWire
import Verif.Spec.Pem
import Verif.Spec.Salt
import Verif.Spec.Sega
import Verif.Spec.Shown
import Verif.Spec.Thex
import Verif.Spec.Utf8
import Verif.Tiger.Digest
import Verif.Tiger.Function
import Verif.Tiger.Hash
import Verif.Tiger.HashVar
import Verif.Tiger.Tree
import Verif.Tiger.TreeLemmas
import Verif.Tiger.TreeMemory
import Verif.Tiger.TreeMemoryLemmas
