import Verif.Conformance
import Verif.Lemmas.Agree
import Verif.Lemmas.Append
import Verif.Lemmas.Applier
import Verif.Lemmas.Arena
import Verif.Lemmas.ArenaOps
import Verif.Lemmas.Batches
import Verif.Lemmas.Below
import Verif.Lemmas.Block
import Verif.Lemmas.BlockRun
import Verif.Lemmas.BodyHtml
import Verif.Lemmas.Browser
import Verif.Lemmas.Budget
import Verif.Lemmas.BudgetRun
import Verif.Lemmas.BuildTree
import Verif.Lemmas.Content
import Verif.Lemmas.Convert
import Verif.Lemmas.ConvertLoop
import Verif.Lemmas.Copy
import Verif.Lemmas.DiffNames
import Verif.Lemmas.DiffPlan
import Verif.Lemmas.DocOps
import Verif.Lemmas.Dumps
import Verif.Lemmas.Fan
import Verif.Lemmas.FanRun
import Verif.Lemmas.Final
import Verif.Lemmas.Float
import Verif.Lemmas.Forget
import Verif.Lemmas.Grove
import Verif.Lemmas.Html
import Verif.Lemmas.HtmlPage
import Verif.Lemmas.Initial
import Verif.Lemmas.Json
import Verif.Lemmas.Links
import Verif.Lemmas.LinksBrowser
import Verif.Lemmas.List
import Verif.Lemmas.Locality
import Verif.Lemmas.LocalityBrowser
import Verif.Lemmas.Loop
import Verif.Lemmas.Matching
import Verif.Lemmas.MirrorHtml
import Verif.Lemmas.Mount
import Verif.Lemmas.Numbers
import Verif.Lemmas.Opaque
import Verif.Lemmas.Path
import Verif.Lemmas.Piece
import Verif.Lemmas.Postcard
import Verif.Lemmas.Provenance
import Verif.Lemmas.ReadBuild
import Verif.Lemmas.ReadPage
import Verif.Lemmas.ReadPlain
import Verif.Lemmas.ReadSound
import Verif.Lemmas.ReadTree
import Verif.Lemmas.Reader
import Verif.Lemmas.Rewrite
import Verif.Lemmas.RewriteBrowser
import Verif.Lemmas.RewriteNative
import Verif.Lemmas.RewriteRun
import Verif.Lemmas.Same
import Verif.Lemmas.Sealed
import Verif.Lemmas.SealedBrowser
import Verif.Lemmas.ShadowOps
import Verif.Lemmas.Sim
import Verif.Lemmas.SoundRun
import Verif.Lemmas.Spot
import Verif.Lemmas.Stay
import Verif.Lemmas.StayUp
import Verif.Lemmas.Step
import Verif.Lemmas.Struct
import Verif.Lemmas.Swap
import Verif.Lemmas.Tables
import Verif.Lemmas.TextSize
import Verif.Lemmas.Trace
import Verif.Lemmas.Traffic
import Verif.Lemmas.Traverse
import Verif.Lemmas.Twin
import Verif.Lemmas.TwinScript
import Verif.Lemmas.Unique
import Verif.Lemmas.WasmOps
import Verif.Lemmas.WebDom
import Verif.Lemmas.Widgets
import Verif.Model.Api
import Verif.Model.Arena
import Verif.Model.Basic
import Verif.Model.Batches
import Verif.Model.BodyHtml
import Verif.Model.Client
import Verif.Model.Diff
import Verif.Model.DiffTree
import Verif.Model.Display
import Verif.Model.Dom
import Verif.Model.Dumps
import Verif.Model.EditScript
import Verif.Model.Float
import Verif.Model.Hash
import Verif.Model.Json
import Verif.Model.Loader
import Verif.Model.Machine
import Verif.Model.Matching
import Verif.Model.Memory
import Verif.Model.Mount
import Verif.Model.Navigate
import Verif.Model.Numbers
import Verif.Model.PatchDebug
import Verif.Model.Postcard
import Verif.Model.Server
import Verif.Model.Sink
import Verif.Model.SinkNames
import Verif.Model.Tables
import Verif.Model.Template
import Verif.Model.Visitors
import Verif.Model.Wasm
import Verif.Model.WasmKeep
import Verif.Model.WebDom
import Verif.Model.Wire
import Verif.Props.Address
import Verif.Props.Agreement
import Verif.Props.AnyBytes
import Verif.Props.AnyPatches
import Verif.Props.Api
import Verif.Props.Append
import Verif.Props.Apply
import Verif.Props.Attrs
import Verif.Props.Batches
import Verif.Props.Block
import Verif.Props.BlockWidgets
import Verif.Props.BodyHtml
import Verif.Props.Browser
import Verif.Props.BrowserErrors
import Verif.Props.Canonical
import Verif.Props.Describe
import Verif.Props.Determines
import Verif.Props.Display
import Verif.Props.Dumps
import Verif.Props.EndToEnd
import Verif.Props.EndToEndScripts
import Verif.Props.Fallback
import Verif.Props.Float
import Verif.Props.Fragment
import Verif.Props.Frame
import Verif.Props.Growth
import Verif.Props.Hash
import Verif.Props.Height
import Verif.Props.Json
import Verif.Props.Live
import Verif.Props.Loader
import Verif.Props.Machine
import Verif.Props.Matching
import Verif.Props.Memory
import Verif.Props.Mount
import Verif.Props.Namespaces
import Verif.Props.Navigate
import Verif.Props.NoBody
import Verif.Props.Numbers
import Verif.Props.Opaque
import Verif.Props.Outcome
import Verif.Props.Parse
import Verif.Props.ParseInput
import Verif.Props.PatchDebug
import Verif.Props.Patches
import Verif.Props.Pieces
import Verif.Props.Postcard
import Verif.Props.Provenance
import Verif.Props.ReadBack
import Verif.Props.Reconnect
import Verif.Props.Refusals
import Verif.Props.Rewriting
import Verif.Props.Roots
import Verif.Props.RoundTrip
import Verif.Props.Same
import Verif.Props.Script
import Verif.Props.Scripted
import Verif.Props.Select
import Verif.Props.Serialize
import Verif.Props.Server
import Verif.Props.Sink
import Verif.Props.SinkContent
import Verif.Props.SinkNames
import Verif.Props.Slots
import Verif.Props.Stable
import Verif.Props.Tables
import Verif.Props.Template
import Verif.Props.Termination
import Verif.Props.TextEdits
import Verif.Props.Traffic
import Verif.Props.TwoDumps
import Verif.Props.Unique
import Verif.Props.UniqueWidgets
import Verif.Props.Upkeep
import Verif.Props.Visitors
import Verif.Props.Widgets
import Verif.Props.WidgetsLive
import Verif.Props.Wire
import Verif.Spec.Edit
import Verif.Spec.Html
import Verif.Spec.OfForest
import Verif.Spec.Patch
import Verif.Spec.Reader
import Verif.Spec.Script
import Verif.Spec.Sound
