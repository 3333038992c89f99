import Verif.Basic
import Verif.Conformance.Parts
import Verif.Conformance.PieceTable
import Verif.Conformance.Scripts
import Verif.Model.Assoc
import Verif.Model.Buffer
import Verif.Model.CommandLine
import Verif.Model.Connection
import Verif.Model.Coords
import Verif.Model.Core
import Verif.Model.Diff
import Verif.Model.Editor
import Verif.Model.F32
import Verif.Model.Ffi
import Verif.Model.FfiGen
import Verif.Model.FfiHeap
import Verif.Model.FfiWatch
import Verif.Model.Flow
import Verif.Model.Glass
import Verif.Model.Hangup
import Verif.Model.History
import Verif.Model.Host
import Verif.Model.Json
import Verif.Model.Keys
import Verif.Model.Lifecycle
import Verif.Model.Locks
import Verif.Model.LuaEnv
import Verif.Model.Menu
import Verif.Model.PieceTable
import Verif.Model.PlainRegex
import Verif.Model.Positions
import Verif.Model.Printing
import Verif.Model.Reader
import Verif.Model.Relay
import Verif.Model.Requests
import Verif.Model.Rpc
import Verif.Model.Scripts
import Verif.Model.Server
import Verif.Model.SessionName
import Verif.Model.ShortName
import Verif.Model.StackMap
import Verif.Model.Standalone
import Verif.Model.Str
import Verif.Model.TermMode
import Verif.Model.Text
import Verif.Model.Tui
import Verif.Model.TuiEnd
import Verif.Model.Utf8
import Verif.Model.View
import Verif.Model.Wire
import Verif.Proofs.Assoc
import Verif.Proofs.Boundary
import Verif.Proofs.Calm
import Verif.Proofs.CalmAny
import Verif.Proofs.CalmAscii
import Verif.Proofs.CalmClose
import Verif.Proofs.CalmDelete
import Verif.Proofs.CalmLog
import Verif.Proofs.CalmOps
import Verif.Proofs.CalmRun
import Verif.Proofs.CalmViews
import Verif.Proofs.Chars
import Verif.Proofs.Coords
import Verif.Proofs.CoordsModel
import Verif.Proofs.Core
import Verif.Proofs.CoreDelete
import Verif.Proofs.CoreInv
import Verif.Proofs.CoreMaps
import Verif.Proofs.CoreNeat
import Verif.Proofs.CoreOrder
import Verif.Proofs.CoreOut
import Verif.Proofs.CoreReach
import Verif.Proofs.CoreScreen
import Verif.Proofs.CoreSel
import Verif.Proofs.CoreStack
import Verif.Proofs.CoreText
import Verif.Proofs.CoreTidy
import Verif.Proofs.CoreViews
import Verif.Proofs.Delete
import Verif.Proofs.Diff
import Verif.Proofs.DiffExact
import Verif.Proofs.Edit
import Verif.Proofs.Editor
import Verif.Proofs.EditorLua
import Verif.Proofs.EditorOut
import Verif.Proofs.EditorSteps
import Verif.Proofs.Exact
import Verif.Proofs.F32
import Verif.Proofs.FfiHeap
import Verif.Proofs.Glass
import Verif.Proofs.Heard
import Verif.Proofs.Highlight
import Verif.Proofs.History
import Verif.Proofs.Host
import Verif.Proofs.JsonText
import Verif.Proofs.Lcs
import Verif.Proofs.LineLen
import Verif.Proofs.Lines
import Verif.Proofs.Lossy
import Verif.Proofs.LuaBody
import Verif.Proofs.LuaEnv
import Verif.Proofs.Menu
import Verif.Proofs.Messages
import Verif.Proofs.Motion
import Verif.Proofs.MotionAny
import Verif.Proofs.Newlines
import Verif.Proofs.PieceTable
import Verif.Proofs.PlainRegex
import Verif.Proofs.Private
import Verif.Proofs.Range
import Verif.Proofs.Reach
import Verif.Proofs.Reader
import Verif.Proofs.ReaderNet
import Verif.Proofs.Reading
import Verif.Proofs.StackMap
import Verif.Proofs.Utf8
import Verif.Proofs.View
import Verif.Proofs.White
import Verif.Proofs.Whole
import Verif.Props.Agree
import Verif.Props.Answers
import Verif.Props.AnyChars
import Verif.Props.AnyServer
import Verif.Props.Batch
import Verif.Props.Behind
import Verif.Props.Calm
import Verif.Props.CalmCheck
import Verif.Props.CalmExact
import Verif.Props.CommandLine
import Verif.Props.Connection
import Verif.Props.ConnectionServer
import Verif.Props.Context
import Verif.Props.Conversation
import Verif.Props.Coords
import Verif.Props.Core
import Verif.Props.CoreDelete
import Verif.Props.CoreEdit
import Verif.Props.CoreMove
import Verif.Props.CoreOut
import Verif.Props.Diff
import Verif.Props.Editing
import Verif.Props.Exec
import Verif.Props.Ffi
import Verif.Props.FfiGen
import Verif.Props.FfiHeap
import Verif.Props.FfiWatch
import Verif.Props.Flow
import Verif.Props.Glass
import Verif.Props.GlassFaces
import Verif.Props.GlassMenu
import Verif.Props.GlassUser
import Verif.Props.Hangup
import Verif.Props.Hints
import Verif.Props.HostPaths
import Verif.Props.HostPlain
import Verif.Props.HostTcp
import Verif.Props.Kept
import Verif.Props.Lifecycle
import Verif.Props.LinesRange
import Verif.Props.Locks
import Verif.Props.LuaEnv
import Verif.Props.Menu
import Verif.Props.MenuSelect
import Verif.Props.Motion
import Verif.Props.MotionAny
import Verif.Props.Positions
import Verif.Props.Printing
import Verif.Props.Private
import Verif.Props.Reader
import Verif.Props.Relay
import Verif.Props.Render
import Verif.Props.Requested
import Verif.Props.Requests
import Verif.Props.Roaming
import Verif.Props.Rpc
import Verif.Props.SafeServer
import Verif.Props.Screen
import Verif.Props.Scripts
import Verif.Props.Server
import Verif.Props.Session
import Verif.Props.SessionName
import Verif.Props.ShortName
import Verif.Props.Showing
import Verif.Props.ShowingCells
import Verif.Props.StackMap
import Verif.Props.Standalone
import Verif.Props.Startup
import Verif.Props.TermMode
import Verif.Props.Tui
import Verif.Props.TuiAsks
import Verif.Props.TuiEnd
import Verif.Props.TuiMenu
import Verif.Props.TuiSize
import Verif.Props.UserBytes
import Verif.Props.UserScreen
import Verif.Props.UserTerminal
import Verif.Props.View
import Verif.Props.Whole
import Verif.Props.WholeServer
import Verif.Props.Wire
import Verif.Spec.Agree
import Verif.Spec.AnyChars
import Verif.Spec.Batch
import Verif.Spec.Calm
import Verif.Spec.Connection
import Verif.Spec.Conversation
import Verif.Spec.Coords
import Verif.Spec.Core
import Verif.Spec.Diff
import Verif.Spec.Editor
import Verif.Spec.FfiGen
import Verif.Spec.FfiHeap
import Verif.Spec.Flow
import Verif.Spec.Glass
import Verif.Spec.GlassFaces
import Verif.Spec.GlassUser
import Verif.Spec.Heard
import Verif.Spec.JsonText
import Verif.Spec.Kept
import Verif.Spec.Locks
import Verif.Spec.LuaEnv
import Verif.Spec.Menu
import Verif.Spec.Motion
import Verif.Spec.MotionAny
import Verif.Spec.Positions
import Verif.Spec.Printing
import Verif.Spec.Private
import Verif.Spec.Reach
import Verif.Spec.Reader
import Verif.Spec.Recency
import Verif.Spec.Relay
import Verif.Spec.Requests
import Verif.Spec.SafeServer
import Verif.Spec.Screen
import Verif.Spec.Scripts
import Verif.Spec.Server
import Verif.Spec.Session
import Verif.Spec.Showing
import Verif.Spec.Text
import Verif.Spec.Tui
import Verif.Spec.TuiMenu
import Verif.Spec.Unicode
import Verif.Spec.UserScreen
import Verif.Spec.View
import Verif.Spec.Whole
import Verif.Spec.WholeServer
