import Verif.Props.Varint
import Verif.Props.Mbuf
import Verif.Props.Value
import Verif.Props.Str
import Verif.Props.StrApi
import Verif.Props.Unescape
import Verif.Props.DataView
import Verif.Props.MgStr
import Verif.Props.Convert
import Verif.Props.Printf
import Verif.Props.PrintfWidth
import Verif.Props.Object
import Verif.Props.ObjectIter
import Verif.Props.ObjectProto
import Verif.Props.Arena
import Verif.Props.Array
import Verif.Props.Core
import Verif.Props.Tok
import Verif.Props.Script
import Verif.Props.Flow
import Verif.Props.Vars
import Verif.Props.Machine
import Verif.Props.Operators
import Verif.Props.Assign
import Verif.Props.Bcode
import Verif.Props.Lines
import Verif.Props.Jumps
import Verif.Props.Parse
import Verif.Props.ParseEnds
import Verif.Props.ParseOdd
import Verif.Props.ParseChain
import Verif.Model.Gc
import Verif.Model.Own
import Verif.Model.GcVm
import Verif.Spec.Gc
import Verif.Spec.Client
import Verif.Lemmas.GcSlot
import Verif.Lemmas.GcStr
import Verif.Lemmas.GcMark
import Verif.Lemmas.GcMarkAll
import Verif.Lemmas.GcCompact
import Verif.Lemmas.GcAll
import Verif.Lemmas.GcObs
import Verif.Lemmas.GcMono
import Verif.Lemmas.Own
import Verif.Lemmas.Client
import Verif.Lemmas.ClientGc
import Verif.Lemmas.ClientOps
import Verif.Props.Client
import Verif.Props.Gc
import Verif.Props.GcExec
import Verif.Model.Json
import Verif.Lemmas.Json
import Verif.Spec.Json
import Verif.Props.Json
import Verif.Spec.JsonValue
import Verif.Lemmas.JsonText
import Verif.Lemmas.JsonBuilt
import Verif.Lemmas.JsonValue
import Verif.Props.JsonValue
import Verif.Props.HexLiteral
import Verif.Spec.JsonTree
import Verif.Props.JsonOut
import Verif.Lemmas.JsonRound
import Verif.Props.JsonRound
import Verif.Model.Ffi
import Verif.Spec.Ffi
import Verif.Lemmas.Ffi
import Verif.Lemmas.FfiText
import Verif.Lemmas.FfiSig
import Verif.Lemmas.FfiSafe
import Verif.Props.Ffi
import Verif.Props.FfiCall
import Verif.Props.Apply
import Verif.Props.BuiltinFn
import Verif.Props.Builtin
import Verif.Lemmas.HistoryOrder
import Verif.Lemmas.Natives
import Verif.Spec.Builtin
import Verif.Model.Builtin
import Verif.Model.Create
import Verif.Spec.Create
import Verif.Props.Create
import Verif.Model.Load
import Verif.Spec.Load
import Verif.Lemmas.Load
import Verif.Props.Load
import Verif.Model.Print
import Verif.Spec.Print
import Verif.Lemmas.Print
import Verif.Props.NumText
import Verif.Props.Print
import Verif.Spec.Invisible
import Verif.Lemmas.SimHeap
import Verif.Lemmas.SimVal
import Verif.Lemmas.SimVm
import Verif.Lemmas.SimOps
import Verif.Lemmas.SimExec
import Verif.Lemmas.SimGc
import Verif.Lemmas.SimRun
import Verif.Lemmas.SimNative
import Verif.Lemmas.SimCan
import Verif.Lemmas.SimSupply
import Verif.Lemmas.SimCreate
import Verif.Props.Invisible
import Verif.Model.GcBuiltin
import Verif.Spec.GcBuiltin
import Verif.Props.GcBuiltin
import Verif.Model.MkStr
import Verif.Spec.MkStr
import Verif.Props.MkStr
import Verif.Model.Struct
import Verif.Spec.Struct
import Verif.Lemmas.Float
import Verif.Lemmas.Struct
import Verif.Props.Struct
import Verif.Model.Ieee
import Verif.Spec.Ieee
import Verif.Lemmas.Ieee
import Verif.Props.Ieee
import Verif.Model.Strtod
import Verif.Spec.Decimal
import Verif.Lemmas.Strtod
import Verif.Props.Literal
import Verif.Props.FuncValue
import Verif.Props.Index
import Verif.Props.IndexNumber
import Verif.Model.CaseCmp
import Verif.Spec.CaseCmp
import Verif.Props.CaseCmp
import Verif.Props.Pointer
import Verif.Props.TypeOf
import Verif.Props.Logic
import Verif.Model.Trace
import Verif.Props.Trace
import Verif.Model.Destroy
import Verif.Props.Destroy
import Verif.Model.Glob
import Verif.Spec.Glob
import Verif.Props.Glob
import Verif.Model.Time
import Verif.Spec.Calendar
import Verif.Props.Time
import Verif.Model.JsonEsc
import Verif.Props.JsonEsc
import Verif.Props.JsonUnicode
import Verif.Model.Pretty
import Verif.Spec.JsonDoc
import Verif.Lemmas.JsonDoc
import Verif.Props.Pretty
import Verif.Props.JsonFind
import Verif.Props.JsonNext
import Verif.Model.Setf
import Verif.Props.Setf
import Verif.Model.Scanf
import Verif.Spec.Scanf
import Verif.Props.Scanf
import Verif.Spec.JsonDel
import Verif.Props.SetfDel
import Verif.Model.JPrintf
import Verif.Spec.JsonFmt
import Verif.Props.JPrintf
import Verif.Model.JArray
import Verif.Props.JArray
import Verif.Props.PrintfLong
import Verif.Model.Avprintf
import Verif.Props.Avprintf
import Verif.Model.JFile
import Verif.Props.JFile
import Verif.Model.Disasm
import Verif.Props.Disasm
import Verif.Model.Log
import Verif.Props.Log
import Verif.Model.SigMem
import Verif.Props.SigMem
import Verif.Model.ReadFile
import Verif.Props.ReadFile
import Verif.Model.Jsc
import Verif.Props.Jsc
