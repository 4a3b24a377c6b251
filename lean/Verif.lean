import Verif.Model.Io
import Verif.Model.Frame
import Verif.Spec.Rfc6455
import Verif.Lemmas.Io
import Verif.Lemmas.Window
import Verif.Lemmas.Frame
import Verif.Lemmas.Codec
import Verif.Lemmas.FrameOk
import Verif.Props.FrameParse
import Verif.Props.Send
import Verif.Model.Message
import Verif.Props.Message
import Verif.Props.WebSocket
import Verif.Model.Mime
import Verif.Model.Source
import Verif.Model.Body
import Verif.Spec.Source
import Verif.Lemmas.Source
import Verif.Spec.Body
import Verif.Lemmas.Body
import Verif.Props.Body
import Verif.Model.Text
import Verif.Model.Request
import Verif.Model.Response
import Verif.Model.Upgrade
import Verif.Model.Router
import Verif.Spec.Http
import Verif.Lemmas.Head
import Verif.Spec.Decimal
import Verif.Lemmas.Decimal
import Verif.Lemmas.Headers
import Verif.Props.Request
import Verif.Lemmas.Ascii
import Verif.Spec.HttpGrammar
import Verif.Lemmas.HttpRead
import Verif.Lemmas.Response
import Verif.Spec.HttpContract
import Verif.Props.Response
import Verif.Props.Respond
import Verif.Props.WriteAgain
import Verif.Lemmas.HeadBlank
import Verif.Props.RoundTrip
import Verif.Spec.Base64
import Verif.Props.Upgrade
import Verif.Spec.Mime
import Verif.Props.Mime
import Verif.Spec.Path
import Verif.Props.Router
import Verif.Model.Apply
import Verif.Spec.Tree
import Verif.Props.View
import Verif.Lemmas.Tree
import Verif.Lemmas.DiffApply
import Verif.Lemmas.DiffTree
import Verif.Props.Diff
import Verif.Props.Apply
import Verif.Props.Client
import Verif.Props.Component
import Verif.Props.Manage
import Verif.Props.Interleave
import Verif.Props.EndToEnd
import Verif.Props.ListApp
import Verif.Props.Chat
import Verif.Props.ChatOrder
import Verif.Props.ChatAgree
import Verif.Props.ChatView
import Verif.Props.ChatCut
import Verif.Props.Render
import Verif.Props.Json
import Verif.Props.Init
import Verif.Props.Limits
import Verif.Props.LostConnection
import Verif.Props.Fair
import Verif.Props.Changeset
import Verif.Props.ElementBuilder
import Verif.Props.InStep
import Verif.Props.ChatFine
import Verif.Props.ChatFair
import Verif.Props.Wire
import Verif.Props.Socket
import Verif.Props.Exchange
import Verif.Props.Sync
import Verif.Props.Text
import Verif.Props.MessageClone
import Verif.Props.Live
import Verif.Props.Field
import Verif.Props.Instructions
import Verif.Props.ViewBuilder
import Verif.Lemmas.ShapeExact
import Verif.Props.ApplyExact
import Verif.Props.Conform
import Verif.Props.Framing
import Verif.Props.Changes
import Verif.Props.ChatTyping
import Verif.Props.Follows
import Verif.Props.SyncFree
import Verif.Props.KeyedExact
import Verif.Props.WireStep
import Verif.Props.ChangesAny
import Verif.Props.WireNet
import Verif.Props.PaintExact
import Verif.Props.WireOps
import Verif.Props.FrameFormat
import Verif.Props.BackToBack
import Verif.Props.Broken
import Verif.Props.HeaderLines
import Verif.Props.ResponseBody
import Verif.Props.Lenient
import Verif.Props.HeaderOrder
import Verif.Props.Bubbling
import Verif.Props.InPlace
import Verif.Props.ResponseFraming
import Verif.Props.Navigate
import Verif.Props.WriteOutcome
import Verif.Props.Waiting
import Verif.Props.ListNet
import Verif.Props.Exact
import Verif.Props.Ending
import Verif.Props.RenderExact
import Verif.Props.Http11
import Verif.Props.ChatScript
import Verif.Props.Retry
import Verif.Props.Vocabulary
import Verif.Props.ChatPrivacy
import Verif.Validation.RepoTests
import Verif.Validation.Standards
import Verif.Validation.Autobahn
import Verif.Props.WsWaiting
import Verif.Props.ChatBytes
import Verif.Props.Amplify
import Verif.Props.SamePage
import Verif.Props.JsonExact
import Verif.Props.Patterns
import Verif.Props.ChatGrows
import Verif.Props.PageIds
import Verif.Props.ChatAuthors
import Verif.Props.RequestLines
import Verif.Props.ChatNewcomer
import Verif.Props.ClientAgree
import Verif.Props.ChatIdBound
import Verif.Props.Interrupt
import Verif.Props.InterruptWrite
import Verif.Props.Recover
import Verif.Props.WordSize
import Verif.Props.WordSizeHttp
import Verif.Props.LostChange
import Verif.Props.LostText
