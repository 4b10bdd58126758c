import Verif.Model.Report
/-
Model of the standard streams of bab that texts end on: output/output.go 26, runner.go 171-185, 321-343, 474-481, 497-506, 536-549,
runner/parallel.go 122-128, 150-153, 257-259, 312-326, tui/parallel.go 49, main.go 30-34. The line that sums up a block goes to
the same places as the announcements (parallel.go 284-292) and is left out, and so are the messages of the logger with
`--verbose` and what the libraries for prompts and for the picker draw.
-/

namespace Bab.Streams

/-- the standard streams: `os.Stdout` and `os.Stderr` -/
inductive Stream
  | out | err
  deriving DecidableEq, Repr

/-- what is written: texts of bab itself, or what the command at a place writes to its own standard output or standard error -/
inductive Text
  | task (n : Str)
  | command (loc : Loc) (text : Str)
  | message (loc : Loc) (text : Str)
  | plan (loc : Loc)
  | stdout (loc : Loc)
  | stderr (loc : Loc)
  deriving DecidableEq, Repr

/-- The stream behind the first writer of an item of a block. Without a view this is `os.Stdout` (parallel.go 122, 150), or the
first writer of the block around it (parallel.go 123-125). A view has one writer for both (parallel.go 257-259) and is drawn on
`os.Stderr` (tui/parallel.go 49). -/
def first (s : Sink) : Stream := if s.key = [] then .out else .err

/-- the stream behind the second writer of an item of a block (parallel.go 122, 126-128, 151, 257-259; tui/parallel.go 49) -/
def second (_ : Sink) : Stream := .err

/-- the stream of a text that is written to the second writer of the item if there is one, and else to `output.Writer`, which is
`os.Stderr` (runner.go 172-184, 322-326; output/output.go 26) -/
def announced : Option Sink → Stream
  | none => .err
  | some s => second s

/-- the stream of a message: outside of blocks it goes to the logger, which writes to `os.Stderr` (runner.go 536-549, main.go 30-34),
inside to the first writer (parallel.go 320-322) -/
def message : Option Sink → Stream
  | none => .err
  | some s => first s

/-- what is written because of an event, and to which stream (runner.go 172-184, 316-343, 474-481; parallel.go 312-326) -/
def written (verbose : Bool) : Ev → List (Stream × Text)
  | .echoTask n _ o => [(announced o, .task n)]
  | .echoCmd loc text o => [(announced o, .command loc text)]
  | .logged loc text level o => if Report.shows verbose level o then [(message o, .message loc text)] else []
  | .procStart loc spec =>
    match spec.out with
    | .discard => []
    | .terminal => [(.out, .stdout loc), (.err, .stderr loc)]
    | .sink s => [(first s, .stdout loc), (second s, .stderr loc)]
  | .wouldRun loc _ => [(.err, .plan loc)]
  | .wouldTask loc _ => [(.err, .plan loc)]
  | .wouldLog loc _ _ => [(.err, .plan loc)]
  | .wouldPrompt loc _ => [(.err, .plan loc)]
  | .wouldParallel loc => [(.err, .plan loc)]
  | _ => []

/-- what ends on one of the streams during a run, in the order of the events (as above) -/
def on (st : Stream) (verbose : Bool) (t : List Ev) : List Text :=
  (t.flatMap (written verbose)).filterMap fun x => if x.1 = st then some x.2 else none

end Bab.Streams
