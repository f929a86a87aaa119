import Verif.Props.IpNet
import Verif.Props.RangeExact
import Verif.Props.IpNet2
import Verif.Props.Ipdb
import Verif.Props.Export
import Verif.Props.ExportAny
import Verif.Props.Dump
import Verif.Props.Operate
import Verif.Props.Text
import Verif.Props.Threads
import Verif.Props.WritingRefused
import Verif.Props.Plain
import Verif.Props.Memip
import Verif.Props.MemipExact
import Verif.Props.Convert
import Verif.Props.Awdb
import Verif.Props.AwdbNets
import Verif.Props.AwdbDump6
import Verif.Props.EndToEnd6
import Verif.Props.EndToEnd6Example
import Verif.Props.EndToEndLost
import Verif.Props.EndToEndLostExample
import Verif.Props.VersionEnd
import Verif.Props.VersionEndExample
import Verif.Props.AwdbFile
import Verif.Props.AwdbQueryExact
import Verif.Props.Registry
import Verif.Props.Converter
import Verif.Props.ConverterExample
import Verif.Props.Readers
import Verif.Props.ReadersCut
import Verif.Props.Check
import Verif.Props.Columns
import Verif.Props.AwdbWithin
import Verif.Props.AwdbLookup
import Verif.Props.AwdbTyped
import Verif.Props.AwdbFill
import Verif.Props.Clients
import Verif.Props.Size
import Verif.Props.Long
import Verif.Props.Shared
import Verif.Props.LineExact
import Verif.Props.LineAsn
import Verif.Props.Outputs
import Verif.Props.OutputsText
import Verif.Props.OutputsExample
import Verif.Props.OutputsAlone
import Verif.Props.OutputsAloneExample
import Verif.Props.OutputsAll
import Verif.Props.OutputsAllExample
import Verif.Props.ConverterLine
import Verif.Props.ConverterLineExample
import Verif.Props.MergeMin
import Verif.Props.EndToEnd
import Verif.Props.EndToEndExample
import Verif.Props.Names
import Verif.Props.IpdbExact
import Verif.Props.IpdbFailed
import Verif.Props.Json
import Verif.Props.PlainCut
import Verif.Props.AlignedExact
import Verif.Props.EmptyExact
import Verif.Props.ReadersTextExact
import Verif.Props.ConverterFail
import Verif.Props.TrimExact
import Verif.Props.PackAny
import Verif.Props.SortRanges
import Verif.Props.AwdbServe
import Verif.Model.Serving
import Verif.Props.Serving
import Verif.Proof.Json.Texts
import Verif.Props.GoWorld
import Verif.Props.GoWorldExample
import Verif.Spec.AddrText
import Verif.Proof.AddrText
import Verif.Props.AddrText
import Verif.Props.AddrRequest
import Verif.Spec.JsonText
import Verif.Proof.Json.Grammar
import Verif.Proof.Json.GrammarValue
import Verif.Proof.Json.GrammarStr
import Verif.Proof.Json.Members
import Verif.Proof.Json.Decode
import Verif.Proof.Json.DecodeMeta
import Verif.Proof.Json.DecodeEnd
import Verif.Proof.Json.Written
import Verif.Proof.Json.TextIff
import Verif.Props.JsonText
import Verif.Proof.Json.Ordinary
import Verif.Props.AnyJson
import Verif.Spec.AnyFile
import Verif.Proof.Ipdb.AnyFile
import Verif.Proof.Ipdb.AnyAnswer
import Verif.Props.AnyFile
import Verif.Spec.Tidy
import Verif.Proof.Ipdb.Tidy
import Verif.Props.Tidy
import Verif.Model.MapOrder
import Verif.Spec.MapOrder
import Verif.Proof.MapOrder
import Verif.Props.MapOrder
import Verif.Spec.Canonical
import Verif.Props.Canonical
import Verif.Props.CanonicalExample
import Verif.Props.Again
import Verif.Props.AgainExample
import Verif.Props.ConvertedReaders
import Verif.Props.ConvertedReadersExample
import Verif.Props.ThroughText
import Verif.Props.ThroughTextJson
import Verif.Props.ThroughTextExample
import Verif.Props.WritingRefusedRuns
import Verif.Props.WritingRefusedNegation
import Verif.Props.CanonicalNegation
import Verif.Props.RepoTests
import Verif.Props.JavaShared
import Verif.Props.Together
import Verif.Props.TogetherExample
import Verif.Props.TogetherReading
import Verif.Props.TogetherRefused
import Verif.Props.TogetherMixed
import Verif.Props.JsonLanguages
import Verif.Props.Scanner
import Verif.Props.ScanExact
import Verif.Props.ScanSurvive
import Verif.Props.AnyDump
import Verif.Props.ConvertReaders
