import Verif.Base
import Verif.Model.Interpolate
import Verif.Spec.Interpolate
import Verif.Proof.Interpolate
import Verif.Props.Interpolate
import Verif.Proof.GoMap
import Verif.Model.ResolveVars
import Verif.Spec.ResolveVars
import Verif.Proof.ResolveVars
import Verif.Props.ResolveVars
import Verif.Model.Condition
import Verif.Spec.Condition
import Verif.Proof.Condition
import Verif.Props.Condition
import Verif.Model.Babfile
import Verif.Model.Path
import Verif.Model.Prompt
import Verif.Model.Prog
import Verif.Model.Runner
import Verif.Proof.Own
import Verif.Spec.Life
import Verif.Proof.Life
import Verif.Proof.LifeTask
import Verif.Proof.LifeSub
import Verif.Proof.Errs
import Verif.Proof.Safe
import Verif.Spec.Runner
import Verif.Proof.SafeRun
import Verif.Proof.Exec
import Verif.Proof.Sample
import Verif.Proof.Run
import Verif.Proof.Place
import Verif.Proof.Fail
import Verif.Proof.Term
import Verif.Props.Order
import Verif.Props.Outcome
import Verif.Proof.Skip
import Verif.Props.Skip
import Verif.Spec.Vars
import Verif.Proof.Vars
import Verif.Props.Vars
import Verif.Spec.Command
import Verif.Proof.Command
import Verif.Props.Command
import Verif.Proof.Block
import Verif.Props.Parallel
import Verif.Model.Validate
import Verif.Spec.Validate
import Verif.Proof.Validate
import Verif.Props.Validate
import Verif.Model.Parser
import Verif.Model.LoadMessage
import Verif.Spec.Load
import Verif.Proof.Locate
import Verif.Proof.Load
import Verif.Spec.Parser
import Verif.Proof.Parser
import Verif.Props.Parser
import Verif.Model.Writer
import Verif.Spec.Writer
import Verif.Proof.Writer
import Verif.Proof.WriterLocks
import Verif.Props.Writer
import Verif.Model.Suggest
import Verif.Proof.Sort
import Verif.Props.Suggest
import Verif.Model.Finder
import Verif.Props.Finder
import Verif.Model.Main
import Verif.Props.Main
import Verif.Model.Listing
import Verif.Spec.Listing
import Verif.Props.Listing
import Verif.Model.Update
import Verif.Props.Update
import Verif.Model.Picker
import Verif.Props.Picker
import Verif.Model.View
import Verif.Props.View
import Verif.Model.Unmarshal
import Verif.Spec.Unmarshal
import Verif.Proof.Unmarshal
import Verif.Props.Unmarshal
import Verif.Model.Forms
import Verif.Props.Prompt
import Verif.Spec.Cycle
import Verif.Proof.Claim
import Verif.Proof.ClaimRun
import Verif.Props.Cycle
import Verif.Model.JsonSchema
import Verif.Proof.JsonSchema
import Verif.Props.JsonSchema
import Verif.Spec.Confine
import Verif.Proof.Sim
import Verif.Proof.Chain
import Verif.Props.Confine
import Verif.Spec.Explain
import Verif.Proof.Explain
import Verif.Props.Explain
import Verif.Model.Cli
import Verif.Spec.Cli
import Verif.Proof.Cli
import Verif.Props.Cli
import Verif.Props.Findings
import Verif.Model.Locate
import Verif.Props.Locate
import Verif.Spec.Transparent
import Verif.Proof.Ren
import Verif.Proof.RenRun
import Verif.Proof.Layer
import Verif.Props.Transparent
import Verif.Model.Draw
import Verif.Model.Protocol
import Verif.Spec.Protocol
import Verif.Proof.Protocol
import Verif.Props.Protocol
import Verif.Model.Entry
import Verif.Props.Entry
import Verif.Model.Message
import Verif.Spec.Message
import Verif.Proof.Message
import Verif.Props.Message
import Verif.Props.Load
import Verif.Spec.Shown
import Verif.Proof.Shown
import Verif.Props.Shown
import Verif.Props.Line
import Verif.Spec.Faults
import Verif.Proof.Faults
import Verif.Model.ReadMessage
import Verif.Props.Faults
import Verif.Props.SyntaxMessage
import Verif.Spec.Plan
import Verif.Proof.Plan
import Verif.Props.Plan
import Verif.Spec.Due
import Verif.Proof.Due
import Verif.Props.Due
import Verif.Spec.Work
import Verif.Proof.Work
import Verif.Props.Work
import Verif.Spec.Document
import Verif.Props.Document
import Verif.Props.Offered
import Verif.Spec.Complete
import Verif.Props.Complete
import Verif.Props.Invocation
import Verif.Spec.Ends
import Verif.Proof.Ends
import Verif.Props.Ends
import Verif.Model.Process
import Verif.Proof.Process
import Verif.Props.Process
import Verif.Model.Install
import Verif.Spec.Install
import Verif.Proof.Install
import Verif.Props.Install
import Verif.Tests.Text
import Verif.Tests.Output
import Verif.Tests.Files
import Verif.Tests.ParserData
import Verif.Tests.Parser
import Verif.Tests.Runner
import Verif.Tests.Cli
import Verif.Spec.Race
import Verif.Proof.Race
import Verif.Proof.RaceRun
import Verif.Props.Race
import Verif.Model.CleanBytes
import Verif.Spec.CleanBytes
import Verif.Proof.CleanBytes
import Verif.Props.CleanBytes
import Verif.Model.CommandLine
import Verif.Spec.CommandLine
import Verif.Proof.CommandLine
import Verif.Props.CommandLine
import Verif.Model.Report
import Verif.Spec.Report
import Verif.Props.Report
import Verif.Model.UpdateRuns
import Verif.Props.UpdateRuns
import Verif.Model.Exit
import Verif.Props.Exit
import Verif.Spec.Edit
import Verif.Proof.Lines
import Verif.Props.Edit
import Verif.Model.Fuzzy
import Verif.Spec.Fuzzy
import Verif.Proof.Fuzzy
import Verif.Props.Fuzzy
import Verif.Model.Ansi
import Verif.Spec.Ansi
import Verif.Proof.Ansi
import Verif.Proof.Strip
import Verif.Props.Ansi
import Verif.Tests.Ansi
import Verif.Model.Viewport
import Verif.Props.Viewport
import Verif.Spec.Shell
import Verif.Proof.Shell
import Verif.Props.Shell
import Verif.Model.Fit
import Verif.Props.Fit
import Verif.Model.Debug
import Verif.Spec.Secret
import Verif.Proof.Secret
import Verif.Proof.SecretRun
import Verif.Props.Secret
import Verif.Spec.Asked
import Verif.Proof.Asked
import Verif.Props.Asked
import Verif.Spec.Width
import Verif.Proof.Width
import Verif.Props.Width
import Verif.Spec.Size
import Verif.Proof.Size
import Verif.Props.Size
import Verif.Spec.Rename
import Verif.Proof.Rename
import Verif.Proof.RenameRun
import Verif.Props.Rename
import Verif.Spec.Split
import Verif.Proof.Split
import Verif.Proof.SplitPlan
import Verif.Props.Split
import Verif.Spec.Flat
import Verif.Proof.Flat
import Verif.Props.Flat
import Verif.Props.Files
import Verif.Spec.Deps
import Verif.Props.Deps
import Verif.Spec.Values
import Verif.Proof.Values
import Verif.Props.Values
import Verif.Spec.Home
import Verif.Props.Home
import Verif.Model.Streams
import Verif.Spec.Streams
import Verif.Props.Streams
import Verif.Spec.Settings
import Verif.Props.Settings
import Verif.Spec.Silent
import Verif.Proof.Silent
import Verif.Proof.SilentRun
import Verif.Props.Silent
import Verif.Spec.Veil
import Verif.Proof.Veil
import Verif.Proof.VeilRun
import Verif.Props.Veil
import Verif.Spec.Calls
import Verif.Props.Calls
import Verif.Spec.Never
import Verif.Props.Never
import Verif.Spec.Inline
import Verif.Props.Inline
import Verif.Spec.Texts
import Verif.Props.Texts
import Verif.Props.Unused
import Verif.Spec.RenameVar
import Verif.Props.RenameVar
