import Verif.Props.Multiset
import Verif.Props.Delta
import Verif.Props.Engine
import Verif.Props.Merge
import Verif.Props.EngineOrder
import Verif.Props.Watch
import Verif.Props.Interval
import Verif.Props.Rope
import Verif.Props.Cursor
import Verif.Props.Breaks
import Verif.Props.WrapTasks
import Verif.Props.VisualLines
import Verif.Props.Wrap
import Verif.Props.IndexSet
import Verif.Props.Selection
import Verif.Props.Find
import Verif.Props.LineCache
import Verif.Rope.Spans
import Verif.Spec.Spans
import Verif.Rope.SpansLemmas
import Verif.Props.Spans
import Verif.Core.Layers
import Verif.Core.LayersLemmas
import Verif.Spec.Layers
import Verif.Props.Layers
import Verif.Rope.Compare
import Verif.Rope.Diff
import Verif.Spec.Compare
import Verif.Rope.CompareLemmas
import Verif.Rope.DiffLemmas
import Verif.Rope.PanicLemmas
import Verif.Props.Compare
import Verif.Rope.LisLemmas
import Verif.Trace.FixedLifoDeque
import Verif.Props.Trace
import Verif.Core.Recorder
import Verif.Props.Recorder
import Verif.Core.WidthCache
import Verif.Props.WidthCache
import Verif.Core.Detect
import Verif.Props.Detect
import Verif.Rope.CharCursor
import Verif.Core.WordBoundaries
import Verif.Props.WordBoundaries
import Verif.Unicode.Emoji
import Verif.Props.Emoji
import Verif.Core.Backspace
import Verif.Props.Backspace
import Verif.Unicode.LineBreakTables
import Verif.Unicode.LineBreak
import Verif.Unicode.LineBreakLemmas
import Verif.Spec.Uax14
import Verif.Unicode.Uax14Lemmas
import Verif.Unicode.LineBreakIterLemmas
import Verif.Props.LineBreak
import Verif.Core.LineBreakCursor
import Verif.Core.LineBreakCursorLemmas
import Verif.Props.LineBreakCursor
import Verif.Spec.Fill
import Verif.Core.RewrapLemmas
import Verif.Core.RewrapLines
import Verif.Core.RewrapRule
import Verif.Props.Rewrap
import Verif.Core.LineOffset
import Verif.Core.Movement
import Verif.Spec.LineStarts
import Verif.Core.LineOffsetLemmas
import Verif.Props.Movement
import Verif.Core.EditOps
import Verif.Spec.EditOps
import Verif.Core.EditOpsLemmas
import Verif.Props.EditOps
import Verif.Plugin.ChunkCache
import Verif.Spec.ChunkCache
import Verif.Plugin.ChunkCacheLemmas
import Verif.Plugin.ChunkReadLemmas
import Verif.Plugin.ChunkUpdateLemmas
import Verif.Props.ChunkCache
import Verif.Plugin.StateCache
import Verif.Spec.StateCache
import Verif.Plugin.StateTextLemmas
import Verif.Plugin.StateCacheLemmas
import Verif.Plugin.StateUpdateLemmas
import Verif.Plugin.StateSetLemmas
import Verif.Plugin.StateChainLemmas
import Verif.Plugin.HighlightLemmas
import Verif.Props.StateCache
import Verif.Rpc.Parse
import Verif.Rpc.Loop
import Verif.Spec.Rpc
import Verif.Rpc.LoopLemmas
import Verif.Props.Rpc
import Verif.Core.Editor
import Verif.Spec.Editor
import Verif.Core.EditorBook
import Verif.Core.EditorStack
import Verif.Core.EditorSession
import Verif.Core.EditorSave
import Verif.Props.Editor
import Verif.Core.Find
import Verif.Spec.Highlights
import Verif.Core.FindMatch
import Verif.Core.FindLoop
import Verif.Core.FindRange
import Verif.Core.FindEdit
import Verif.Core.FindUpdate
import Verif.Props.Highlights
import Verif.Core.FindNext
import Verif.Props.FindNext
import Verif.Lsp.Sync
import Verif.Spec.Lsp
import Verif.Props.Lsp
import Verif.Config.Manager
import Verif.Spec.Config
import Verif.Config.Lemmas
import Verif.Config.Refine
import Verif.Config.Ops
import Verif.Config.Langs
import Verif.Props.Config
import Verif.Config.Core
import Verif.Props.ConfigTold
import Verif.Core.Files
import Verif.Props.Files
import Verif.Core.SaveText
import Verif.Props.SaveText
import Verif.View.Gesture
import Verif.Props.Gesture
import Verif.View.Encode
import Verif.Props.Encode
import Verif.View.AfterEdit
import Verif.Props.EditSelection
import Verif.Props.EditView
import Verif.View.Search
import Verif.Props.Search
import Verif.Core.EditorSpans
import Verif.Props.PluginSpans
import Verif.View.Annotations
import Verif.Rope.SpansExact
import Verif.Props.Annotations
import Verif.Core.ThemeStyleMap
import Verif.View.StyleIds
import Verif.Props.StyleIds
import Verif.Core.Themes
import Verif.Props.Themes
import Verif.Lsp.Message
import Verif.Props.LspMessage
import Verif.Lsp.Plugin
import Verif.Spec.LspSession
import Verif.Props.LspSession
import Verif.Plugin.Syntect
import Verif.Spec.Scopes
import Verif.Plugin.SyntectLemmas
import Verif.Plugin.SyntectCacheLemmas
import Verif.Props.Scopes
import Verif.Plugin.Comments
import Verif.Spec.Comments
import Verif.Plugin.CommentsLemmas
import Verif.Props.Comments
import Verif.Plugin.Indent
import Verif.Spec.Indent
import Verif.Props.Indent
import Verif.Core.Plugins
import Verif.Spec.Plugins
import Verif.Core.PluginsLemmas
import Verif.Core.PluginsInv
import Verif.Props.Plugins
import Verif.Props.PluginEvents
import Verif.Lang.Peg
import Verif.Lang.PegLemmas
import Verif.Lang.StateStack
import Verif.Lang.StateStackLemmas
import Verif.Lang.Rust
import Verif.Spec.LangUtf8
import Verif.Spec.Lang
import Verif.Lang.Highlight
import Verif.Lang.RustLemmas
import Verif.Lang.TurnLemmas
import Verif.Lang.ParseLemmas
import Verif.Lang.HighlightLemmas
import Verif.Spec.LangTokens
import Verif.Lang.NumberLemmas
import Verif.Lang.LookLemmas
import Verif.Props.LangTokens
import Verif.Props.LangLines
import Verif.Wire.Codec
import Verif.Spec.Wire
import Verif.Props.Wire
import Verif.Trace.Tracer
import Verif.Spec.Tracer
import Verif.Props.Tracer
import Verif.Core.Start
import Verif.Props.Start
import Verif.Config.Files
import Verif.Spec.ConfigFiles
import Verif.Props.ConfigFiles
import Verif.Core.Agenda
import Verif.Spec.Agenda
import Verif.Props.Agenda
import Verif.Props.AgendaEnd
import Verif.Spec.LineNumbers
import Verif.Core.LineNumbers
import Verif.Core.LineNumbersLemmas
import Verif.Props.LineNumbers
import Verif.Props.Rest
import Verif.Lsp.Hover
import Verif.Spec.Hover
import Verif.Props.LspHover
import Verif.Lsp.Status
import Verif.Spec.Status
import Verif.Props.LspStatus
import Verif.Lsp.Workspace
import Verif.Spec.Workspace
import Verif.Props.LspWorkspace
import Verif.Lsp.Requests
import Verif.Spec.Requests
import Verif.Props.LspRequests
import Verif.Core.Manifests
import Verif.Spec.Manifests
import Verif.Props.Manifests
import Verif.Plugin.Dispatch
import Verif.Spec.Dispatch
import Verif.Props.Dispatch
import Verif.Core.Sync
import Verif.Spec.Sync
import Verif.Props.Sync
import Verif.Plugin.Sample
import Verif.Props.Sample
import Verif.Core.Logging
import Verif.Spec.Logging
import Verif.Props.Logging
import Verif.View.EditTypes
import Verif.Spec.EditTypes
import Verif.Props.EditTypes
