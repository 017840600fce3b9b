import Verif.Model.World
import Verif.Model.Syntax
import Verif.Spec.Security
import Verif.Spec.Lineage
import Verif.Spec.Log
import Verif.Spec.Base64
import Verif.Spec.Tokens
import Verif.Spec.Reload
import Verif.Spec.Reason
import Verif.Spec.Url
import Verif.Spec.Path
import Verif.Spec.Literals
import Verif.Spec.Grammar
import Verif.Spec.Texts
import Verif.Spec.Options
import Verif.Spec.Refresh
import Verif.Spec.Trace
import Verif.Spec.Callback
import Verif.Proof.State
import Verif.Proof.Exec
import Verif.Proof.Step
import Verif.Proof.Inv
import Verif.Proof.OpInv
import Verif.Proof.Shape
import Verif.Proof.Lineage
import Verif.Proof.Main
import Verif.Proof.Utf8
import Verif.Proof.Shown
import Verif.Proof.Revoke
import Verif.Proof.Reload
import Verif.Proof.Obs
import Verif.Proof.Ids
import Verif.Proof.Pending
import Verif.Proof.Requests
import Verif.Proof.Lex
import Verif.Proof.Grammar
import Verif.Proof.Config
import Verif.Proof.Refresh
import Verif.Proof.Texts
import Verif.Proof.Trace
import Verif.Proof.TraceInv
import Verif.Props.Demo
import Verif.Props.Tokens
import Verif.Props.Crash
import Verif.Props.Reload
import Verif.Props.Isolation
import Verif.Props.Client
import Verif.Props.Show
import Verif.Props.AuthUrl
import Verif.Props.Literals
import Verif.Props.Grammar
import Verif.Props.Config
import Verif.Props.Refresh
import Verif.Props.RefreshResult
import Verif.Props.Posts
import Verif.Props.Spacing
import Verif.Props.RepoTests
import Verif.Proof.Callback
import Verif.Props.Callback
import Verif.Spec.Schedule
import Verif.Proof.Schedule
import Verif.Props.Schedule
import Verif.Spec.Events
import Verif.Proof.Events
import Verif.Proof.EventCause
import Verif.Props.Events
import Verif.Spec.Notify
import Verif.Props.Notify
import Verif.Spec.Dump
import Verif.Proof.Bincode
import Verif.Proof.Dump
import Verif.Props.Dump
import Verif.Spec.Status
import Verif.Props.Status
import Verif.Props.HttpSize
import Verif.Spec.Fair
import Verif.Proof.Fair
import Verif.Proof.FairRun
import Verif.Props.Live
import Verif.Spec.Http
import Verif.Props.Http
import Verif.Props.Pace
import Verif.Spec.Secrets
import Verif.Proof.Secrets
import Verif.Props.Secrets
import Verif.Props.Requests
import Verif.Model.Cli
import Verif.Spec.Cli
import Verif.Spec.Client
import Verif.Proof.Cli
import Verif.Proof.CliConf
import Verif.Proof.Receive
import Verif.Props.Cli
import Verif.Model.Startup
import Verif.Spec.Startup
import Verif.Proof.Startup
import Verif.Props.Startup
import Verif.Model.Locks
import Verif.Props.Locks
import Verif.Spec.Grant
import Verif.Proof.Grant
import Verif.Props.Grant
import Verif.Props.Codes
import Verif.Model.Commands
import Verif.Props.Commands
import Verif.Model.Json
import Verif.Spec.Json
import Verif.Proof.Json
import Verif.Props.Json
import Verif.Model.Info
import Verif.Proof.Info
import Verif.Props.Info
import Verif.Model.Form
import Verif.Spec.Form
import Verif.Spec.HttpResponse
import Verif.Proof.Form
import Verif.Props.Form
import Verif.Spec.Expiry
import Verif.Spec.Life
import Verif.Proof.Life
import Verif.Props.Life
import Verif.Model.Atomic
import Verif.Proof.Atomic
import Verif.Props.Atomic
import Verif.Proof.Session
import Verif.Props.Session
import Verif.Spec.Prompt
import Verif.Proof.Prompt
import Verif.Props.Prompt
import Verif.Model.Diag
import Verif.Spec.Diag
import Verif.Proof.Diag
import Verif.Props.Diag
import Verif.Spec.Leak
import Verif.Proof.Leak
import Verif.Props.Leak
import Verif.Model.Clock
import Verif.Spec.Clock
import Verif.Proof.Clock
import Verif.Props.Clock
import Verif.Model.Messages
import Verif.Spec.Messages
import Verif.Proof.Messages
import Verif.Props.Messages
import Verif.Spec.Query
import Verif.Proof.Query
import Verif.Props.Query
import Verif.Spec.PromptEvents
import Verif.Proof.PromptEvents
import Verif.Props.PromptEvents
import Verif.Spec.Manual
import Verif.Proof.Manual
import Verif.Props.Manual
import Verif.Model.Calendar
import Verif.Model.Sha256
import Verif.Spec.Calendar
import Verif.Proof.Calendar
import Verif.Props.Calendar
import Verif.Props.Pkce
import Verif.Model.Accept
import Verif.Spec.Accept
import Verif.Proof.Accept
import Verif.Props.Accept
import Verif.Model.HttpStream
import Verif.Proof.HttpStream
import Verif.Props.HttpStream
import Verif.Model.Boot
import Verif.Spec.Boot
import Verif.Props.Boot
import Verif.Model.ChaCha
import Verif.Spec.ChaCha
import Verif.Props.ChaCha
import Verif.Model.UrlStd
import Verif.Spec.UrlStd
import Verif.Proof.UrlStd
import Verif.Props.UrlStd
import Verif.Spec.Persist
import Verif.Props.Persist
import Verif.Spec.Examples
import Verif.Props.Examples
import Verif.Spec.Info
import Verif.Spec.UrlText
import Verif.Props.UrlText
import Verif.Spec.Wall
import Verif.Proof.Wall
import Verif.Props.Wall
import Verif.Model.Ureq
import Verif.Spec.Ureq
import Verif.Props.Ureq
import Verif.Spec.Deadline
import Verif.Proof.Deadline
import Verif.Props.Deadline
import Verif.Model.Ipv6
import Verif.Spec.Ipv6
import Verif.Proof.Ipv6
import Verif.Props.Ipv6
import Verif.Spec.Ipv4
import Verif.Proof.Ipv4
import Verif.Props.Ipv4
import Verif.Spec.Idle
import Verif.Props.Idle
import Verif.Props.Storm
import Verif.Spec.Alone
import Verif.Props.Alone
import Verif.Model.Systemd
import Verif.Spec.Systemd
import Verif.Props.Systemd
import Verif.Model.Completion
import Verif.Spec.Completion
import Verif.Props.Completion
import Verif.Props.Counters
import Verif.Model.Jobs
import Verif.Spec.Jobs
import Verif.Props.Jobs
import Verif.Model.Browsers
import Verif.Spec.Browsers
import Verif.Props.Browsers
import Verif.Model.Daemon
import Verif.Spec.Daemon
import Verif.Proof.Daemon
import Verif.Props.Daemon
import Verif.Model.Reports
import Verif.Spec.Reports
import Verif.Props.Reports
import Verif.Model.Eventing
import Verif.Spec.Eventing
import Verif.Proof.Eventing
import Verif.Props.Eventing
import Verif.Model.Probing
import Verif.Spec.Probing
import Verif.Proof.Probing
import Verif.Props.Probing
