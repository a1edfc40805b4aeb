import Verif.Model.Outcome
import Verif.Model.Bigint128
import Verif.Model.Bigint256
import Verif.Model.BigintText
import Verif.Model.IntLiteral
import Verif.Spec
import Verif.Lemmas.Bigint128
import Verif.Lemmas.Bigint256
import Verif.Lemmas.BigintText
import Verif.Props.Wide128
import Verif.Props.Wide256
import Verif.Props.WideText
import Verif.Props.IntLiteral
import Verif.Model.IntOps
import Verif.Model.LiteralRange
import Verif.Props.IntOps
import Verif.Props.LiteralRange
import Verif.Props.WideNeg
import Verif.Model.RangeLoop
import Verif.Props.RangeLoop
import Verif.Model.Map
import Verif.Lemmas.Map
import Verif.Props.Map
import Verif.Props.MapLib
import Verif.Model.Array
import Verif.Lemmas.Array
import Verif.Props.Array
import Verif.Props.ArrayLib
import Verif.Model.SizedArray
import Verif.Lemmas.SizedArray
import Verif.Props.SizedArray
import Verif.Model.Str
import Verif.Model.Encoding
import Verif.Lemmas.Encoding
import Verif.Props.Encoding
import Verif.Model.Csv
import Verif.Props.Csv
import Verif.Model.Uuid
import Verif.Props.Uuid
import Verif.Model.Binary
import Verif.Props.Binary
import Verif.Model.Strings
import Verif.Lemmas.Strings
import Verif.Props.Strings
import Verif.Model.Utf8
import Verif.Props.Utf8
import Verif.Model.Interp
import Verif.Props.Interp
import Verif.Model.Cast
import Verif.Props.Cast
import Verif.Model.Strconv
import Verif.Props.Strconv
import Verif.Model.Semver
import Verif.Props.Semver
import Verif.Model.Path
import Verif.Props.Path
import Verif.Model.Install
import Verif.Props.Install
import Verif.Model.Channels
import Verif.Lemmas.Channels
import Verif.Props.Channels
import Verif.Model.Threads
import Verif.Props.Threads
import Verif.Model.Server
import Verif.Props.Server
import Verif.Model.Arena
import Verif.Props.Arena
import Verif.Model.Math
import Verif.Props.Math
import Verif.Model.Random
import Verif.Props.Random
import Verif.Model.Json
import Verif.Lemmas.Json
import Verif.Props.Json
import Verif.Model.Lexer
import Verif.Model.LitEmit
import Verif.Props.Lexer
import Verif.Props.LexText
import Verif.Props.LexPlace
import Verif.Props.LitEmit
import Verif.Model.Scope
import Verif.Props.Scope
import Verif.Model.Fmt
import Verif.Props.Fmt
import Verif.Model.Parser
import Verif.Props.Parser
import Verif.Model.Copy
import Verif.Props.Copy
import Verif.Model.Flow
import Verif.Props.Flow
import Verif.Model.Escape
import Verif.Props.Escape
import Verif.Model.Regex
import Verif.Props.Regex
import Verif.Model.Crypto
import Verif.Props.Sha256
import Verif.Props.Md5
import Verif.Props.RandomHex
import Verif.Model.TypeName
import Verif.Props.TypeName
import Verif.Props.TypeView
import Verif.Props.Wildcard
import Verif.Model.Suggest
import Verif.Props.Suggest
import Verif.Model.ConstFold
import Verif.Props.ConstFold
import Verif.Model.Printf
import Verif.Props.Printf
import Verif.Model.Diag
import Verif.Props.Diag
import Verif.Model.Cli
import Verif.Props.Cli
import Verif.Model.Merge
import Verif.Props.Merge
import Verif.Model.Stmt
import Verif.Lemmas.ParseSuffix
import Verif.Props.Stmt
import Verif.Props.StmtSound
import Verif.Props.StmtMore
import Verif.Model.Emit
import Verif.Props.Emit
import Verif.Props.EmitTypes
import Verif.Model.HttpClient
import Verif.Props.HttpClient
import Verif.Props.HttpResponse
import Verif.Model.Io
import Verif.Lemmas.Io
import Verif.Props.IoDirs
import Verif.Props.IoFiles
import Verif.Props.IoMoves
import Verif.Model.WideOps
import Verif.Props.WideOps
import Verif.Props.WideVals
import Verif.Model.Store
import Verif.Props.Store
import Verif.Model.CallArgs
import Verif.Props.CallArgs
import Verif.Model.Accept
import Verif.Props.Accept
import Verif.Model.Elems
import Verif.Props.Elems
import Verif.Model.Convert
import Verif.Props.Convert
import Verif.Model.Atomic
import Verif.Props.Atomic
import Verif.Model.Spin
import Verif.Props.Spin
import Verif.Model.LockHandles
import Verif.Props.LockHandles
import Verif.Model.Exec
import Verif.Props.Exec
import Verif.Model.Watch
import Verif.Props.Watch
import Verif.Model.Doc
import Verif.Props.Doc
import Verif.Model.Extract
import Verif.Props.Extract
import Verif.Model.Net
import Verif.Props.Net
import Verif.Model.Decl
import Verif.Props.Decl
import Verif.Model.Names
import Verif.Props.Names
import Verif.Model.When
import Verif.Props.When
import Verif.Model.Calls
import Verif.Props.Calls
import Verif.Props.CallForms
import Verif.Props.FuncNames
import Verif.Model.Target
import Verif.Props.Target
import Verif.Model.Console
import Verif.Model.Sqlite
import Verif.Props.Console
import Verif.Model.Show
import Verif.Props.Show
import Verif.Model.StructLit
import Verif.Props.StructLit
import Verif.Model.TypeTab
import Verif.Props.TypeTab
import Verif.Model.Operators
import Verif.Props.Operators
import Verif.Model.CastCheck
import Verif.Props.CastCheck
import Verif.Model.Tagged
import Verif.Props.Tagged
import Verif.Model.MapCalls
import Verif.Model.JsonCalls
import Verif.Props.MapCalls
import Verif.Props.JsonCalls
import Verif.Model.Manual
import Verif.Props.Manual
import Verif.Model.ManLookup
import Verif.Props.ManLookup
import Verif.Model.Picks
import Verif.Props.Picks
import Verif.Model.Unpack
import Verif.Props.Unpack
import Verif.Props.UnpackMany
import Verif.Model.RuntimeDir
import Verif.Props.RuntimeDir
