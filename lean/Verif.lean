import Verif.Checks.Library
import Verif.Checks.RepoTests
import Verif.Model.Arc2Warc
import Verif.Model.ArcParser
import Verif.Model.Buffered
import Verif.Model.Builders
import Verif.Model.Cli
import Verif.Model.CliMore
import Verif.Model.Dates
import Verif.Model.Dump
import Verif.Model.GzSeek
import Verif.Model.HttpClient
import Verif.Model.HttpHeader
import Verif.Model.HttpMessage
import Verif.Model.HttpMore
import Verif.Model.Ids
import Verif.Model.Interrupted
import Verif.Model.Links
import Verif.Model.Open
import Verif.Model.ReadRecord
import Verif.Model.Record
import Verif.Model.S3
import Verif.Model.Stdin
import Verif.Model.Stream
import Verif.Model.Tools
import Verif.Model.Unpack
import Verif.Model.UnpackRun
import Verif.Model.ValidReport
import Verif.Model.WarcParser
import Verif.Model.WriteOut
import Verif.Proofs.AnyFile
import Verif.Proofs.AnyRecord
import Verif.Proofs.Arc
import Verif.Proofs.Arc2Warc
import Verif.Proofs.Arc2WarcAny
import Verif.Proofs.Arc2WarcDamaged
import Verif.Proofs.Arc2WarcDemo
import Verif.Proofs.Arc2WarcFail
import Verif.Proofs.Arc2WarcOk
import Verif.Proofs.ArcDamaged
import Verif.Proofs.ArcFirst
import Verif.Proofs.ArcGrammar
import Verif.Proofs.ArcGrammar2
import Verif.Proofs.ArcMore
import Verif.Proofs.ArcReadAll
import Verif.Proofs.ArcSplit
import Verif.Proofs.Buffered
import Verif.Proofs.Bytes
import Verif.Proofs.Clean
import Verif.Proofs.Cli
import Verif.Proofs.Client
import Verif.Proofs.ClientBody
import Verif.Proofs.ClientOwn
import Verif.Proofs.ClientText
import Verif.Proofs.Concat
import Verif.Proofs.Convert
import Verif.Proofs.ConvertFwd
import Verif.Proofs.Crash
import Verif.Proofs.Dump
import Verif.Proofs.Ends
import Verif.Proofs.EndsHttp
import Verif.Proofs.Extend
import Verif.Proofs.Forward
import Verif.Proofs.Frame
import Verif.Proofs.Grammar
import Verif.Proofs.Grammar2
import Verif.Proofs.GrammarDamaged
import Verif.Proofs.Grow
import Verif.Proofs.Hang
import Verif.Proofs.Http
import Verif.Proofs.Http09
import Verif.Proofs.HttpBody
import Verif.Proofs.HttpBroken
import Verif.Proofs.HttpChunk
import Verif.Proofs.HttpCut
import Verif.Proofs.HttpDemo
import Verif.Proofs.HttpFd
import Verif.Proofs.HttpFeed
import Verif.Proofs.HttpGrammar
import Verif.Proofs.HttpGrammarAll
import Verif.Proofs.HttpGrammarBody
import Verif.Proofs.HttpHang
import Verif.Proofs.HttpHead
import Verif.Proofs.HttpHex
import Verif.Proofs.HttpInterim
import Verif.Proofs.HttpLoose
import Verif.Proofs.HttpMsg
import Verif.Proofs.HttpParsed
import Verif.Proofs.HttpPieces
import Verif.Proofs.HttpPlain
import Verif.Proofs.HttpPredict
import Verif.Proofs.HttpResponse
import Verif.Proofs.HttpShift
import Verif.Proofs.HttpSplit
import Verif.Proofs.HttpUrl
import Verif.Proofs.HttpWhole
import Verif.Proofs.HttpZip
import Verif.Proofs.Interrupted
import Verif.Proofs.Inv
import Verif.Proofs.Lines
import Verif.Proofs.Links
import Verif.Proofs.Newline
import Verif.Proofs.Offsets
import Verif.Proofs.Open
import Verif.Proofs.Payload
import Verif.Proofs.Phantom
import Verif.Proofs.ReadAll
import Verif.Proofs.ReadRecord
import Verif.Proofs.Reads
import Verif.Proofs.Reread
import Verif.Proofs.Rich
import Verif.Proofs.RoundTrip
import Verif.Proofs.Rx
import Verif.Proofs.Salvage
import Verif.Proofs.Scan
import Verif.Proofs.Shift
import Verif.Proofs.Stream
import Verif.Proofs.Stripped
import Verif.Proofs.StrippedArc
import Verif.Proofs.SurveyAny
import Verif.Proofs.ToolActs
import Verif.Proofs.ToolDamaged
import Verif.Proofs.ToolDemo
import Verif.Proofs.ToolHttp
import Verif.Proofs.ToolRecords
import Verif.Proofs.ToolRun
import Verif.Proofs.Tools
import Verif.Proofs.Unpack
import Verif.Proofs.WarcParse
import Verif.Proofs.WarcParse2
import Verif.Proofs.Write
import Verif.Proofs.WriteOut
import Verif.Props.Accessors
import Verif.Props.Again
import Verif.Props.Append
import Verif.Props.Arc
import Verif.Props.Arc2Warc
import Verif.Props.Arc2WarcAny
import Verif.Props.Arc2WarcDamaged
import Verif.Props.Arc2WarcIds
import Verif.Props.ArcCommand
import Verif.Props.ArcDamaged
import Verif.Props.ArcGrammar
import Verif.Props.ArcRaw
import Verif.Props.ArcSeek
import Verif.Props.Buffered
import Verif.Props.Builders
import Verif.Props.Cli
import Verif.Props.Client
import Verif.Props.ClientOwn
import Verif.Props.Concat
import Verif.Props.Convert
import Verif.Props.ConvertFwd
import Verif.Props.Copy
import Verif.Props.Crash
import Verif.Props.Crawl
import Verif.Props.Damage
import Verif.Props.Dates
import Verif.Props.Decode
import Verif.Props.Dump
import Verif.Props.Extract
import Verif.Props.Filter
import Verif.Props.Foreign
import Verif.Props.Grammar
import Verif.Props.GrammarDamaged
import Verif.Props.GzSeek
import Verif.Props.Http
import Verif.Props.Http09
import Verif.Props.HttpBody
import Verif.Props.HttpBroken
import Verif.Props.HttpDecoded
import Verif.Props.HttpFd
import Verif.Props.HttpGrammar
import Verif.Props.HttpInterim
import Verif.Props.HttpLoose
import Verif.Props.HttpPipe
import Verif.Props.HttpTarget
import Verif.Props.HttpZip
import Verif.Props.Index
import Verif.Props.IndexAny
import Verif.Props.Interrupted
import Verif.Props.InterruptedRead
import Verif.Props.Links
import Verif.Props.Loops
import Verif.Props.MoreCommands
import Verif.Props.Newline
import Verif.Props.Offsets
import Verif.Props.OnceAny
import Verif.Props.Opening
import Verif.Props.Parsing
import Verif.Props.Pipeline
import Verif.Props.Reading
import Verif.Props.Records
import Verif.Props.Reread
import Verif.Props.RoundTrip
import Verif.Props.S3
import Verif.Props.Salvage
import Verif.Props.Stale
import Verif.Props.Stdin
import Verif.Props.Stripped
import Verif.Props.StrippedCut
import Verif.Props.SurveyAny
import Verif.Props.Terminates
import Verif.Props.ToolDamaged
import Verif.Props.ToolHttp
import Verif.Props.ToolRun
import Verif.Props.Unpack
import Verif.Props.UnpackPlace
import Verif.Props.UnpackRun
import Verif.Props.Valid
import Verif.Props.ValidAny
import Verif.Props.ValidReport
import Verif.Props.WriteOut
import Verif.Props.Writers
import Verif.Py.Bytes
import Verif.Py.Exc
import Verif.Py.File
import Verif.Py.Rx
import Verif.Spec.Accessors
import Verif.Spec.Append
import Verif.Spec.Arc
import Verif.Spec.Arc2Warc
import Verif.Spec.Arc2WarcAny
import Verif.Spec.Arc2WarcDamaged
import Verif.Spec.ArcDamaged
import Verif.Spec.ArcGrammar
import Verif.Spec.ArcSeek
import Verif.Spec.Buffered
import Verif.Spec.Builders
import Verif.Spec.Clean
import Verif.Spec.Cli
import Verif.Spec.Client
import Verif.Spec.Collect
import Verif.Spec.Concat
import Verif.Spec.Convert
import Verif.Spec.Crash
import Verif.Spec.Crawl
import Verif.Spec.Damage
import Verif.Spec.Dates
import Verif.Spec.Dump
import Verif.Spec.Extract
import Verif.Spec.Filter
import Verif.Spec.Foreign
import Verif.Spec.Grammar
import Verif.Spec.GrammarDamaged
import Verif.Spec.GzSeek
import Verif.Spec.Http
import Verif.Spec.Http09
import Verif.Spec.HttpBroken
import Verif.Spec.HttpFd
import Verif.Spec.HttpGrammar
import Verif.Spec.HttpLoose
import Verif.Spec.HttpPipe
import Verif.Spec.HttpTarget
import Verif.Spec.HttpText
import Verif.Spec.HttpZip
import Verif.Spec.Ids
import Verif.Spec.Interrupted
import Verif.Spec.Lines
import Verif.Spec.Links
import Verif.Spec.Newline
import Verif.Spec.OnceAny
import Verif.Spec.Payload
import Verif.Spec.ReadAll
import Verif.Spec.Reads
import Verif.Spec.Reread
import Verif.Spec.S3
import Verif.Spec.Salvage
import Verif.Spec.Scan
import Verif.Spec.Stale
import Verif.Spec.Stripped
import Verif.Spec.Stuck
import Verif.Spec.Survey
import Verif.Spec.SurveyAny
import Verif.Spec.ToolDamaged
import Verif.Spec.ToolHttp
import Verif.Spec.ToolRun
import Verif.Spec.Tools
import Verif.Spec.Toy
import Verif.Spec.Unpack
import Verif.Spec.ValidAny
import Verif.Spec.ValidReport
import Verif.Spec.Warc
import Verif.Spec.Write
import Verif.Spec.WriteOut
