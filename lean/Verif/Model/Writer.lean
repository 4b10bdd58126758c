import Verif.Base
/-
Model of internal/runner/writer.go and of `pathToKey` (parallel.go 26-32). Output is a list of bytes; the text of
a line for cleaning is a list of code points (valid UTF-8 is assumed there). The functions of the library
charmbracelet/x/ansi are parameters. Errors when writing to the terminal are left out.
-/

namespace Bab

/-- `[]byte`, writer.go 83 -/
abbrev Bytes := List UInt8

/-- `\n` (writer.go 90) -/
def nl : UInt8 := 10
/-- `\r` (writer.go 77) -/
def cr : UInt8 := 13

/-- `bytes.IndexByte` (used in writer.go 90) -/
def indexByte (c : UInt8) : Bytes → Option Nat
  | [] => none
  | b :: r => if b = c then some 0 else (indexByte c r).map (· + 1)

/-- `strings.LastIndexByte` (used in writer.go 77) -/
def lastIndexByte (c : UInt8) : Bytes → Option Nat
  | [] => none
  | b :: r =>
    match lastIndexByte c r with
    | some i => some (i + 1)
    | none => if b = c then some 0 else none

/-- writer.go 76-81 `resolveCR` -/
def resolveCR (raw : Bytes) : Bytes :=
  match lastIndexByte cr raw with
  | some i => raw.drop (i + 1)
  | none => raw

/-- writer.go 86-101: the loop of `lineBuffer.process`: the lines emitted and the partial line kept. `clean` stands for
`cleanLine`. The first argument bounds the number of iterations. -/
def processLoop {L : Type} (clean : Bytes → L) : Nat → Bytes → List L × Bytes
  | 0, buf => ([], buf)
  | fuel + 1, buf =>
    if buf = [] then ([], [])
    else
      match indexByte nl buf with
      | none => ([], buf)
      | some i =>
        let r := processLoop clean fuel (buf.drop (i + 1))
        (clean (resolveCR (buf.take i)) :: r.1, r.2)

/-- writer.go 83-103 `lineBuffer.process`: the new partial line and the lines emitted -/
def process {L : Type} (clean : Bytes → L) (part data : Bytes) : Bytes × List L :=
  let buf := part ++ data
  let r := processLoop clean (buf.length + 1) buf
  (r.2, r.1)

/-- writer.go 105-112 `lineBuffer.flush` -/
def flush {L : Type} (clean : Bytes → L) (part : Bytes) : Bytes × List L :=
  if part ≠ [] then ([], [clean (resolveCR part)]) else (part, [])

/-- a line buffer given some writes, one after the other: the partial line and the lines emitted
(calls of writer.go 83-103) -/
def writeAll {L : Type} (clean : Bytes → L) : Bytes → List Bytes → Bytes × List L
  | part, [] => (part, [])
  | part, d :: ds =>
    let r := process clean part d
    let r' := writeAll clean r.1 ds
    (r'.1, r.2 ++ r'.2)

/-- the lines emitted for a command's output: every write, then the flush of parallel.go 153-155 -/
def outputLines {L : Type} (clean : Bytes → L) (chunks : List Bytes) : List L :=
  let r := writeAll clean [] chunks
  r.2 ++ (flush clean r.1).2

/-! ### Concurrent writers

The goroutines of a block write to the prefix writers of its items; all writers of one block share a mutex, and the
destination of a nested block's writer is the writer of the item the block belongs to. The terminal receives single bytes,
so that lines could be mixed if the mutexes did not prevent it. -/

/-- the prefix writers: prefix, `cleanLine`, destination (`none` for the terminal) and mutex of each
(writer.go 114-133, parallel.go 122-151) -/
structure Writers where
  pre : Nat → Bytes
  clean : Nat → Bytes → Bytes
  parent : Nat → Option Nat
  lock : Nat → Nat

/-- a call in progress: the writer and the lines still to be given to its destination (writer.go 133-149) -/
structure WFrame where
  w : Nat
  lines : List Bytes

/-- a goroutine: the calls it is in, innermost first, and the calls still to be made; `none` is a flush
(the goroutines of parallel.go 138-161) -/
structure WThread where
  stack : List WFrame
  todo : List (Nat × Option Bytes)

/-- a call that has taken the mutex: the writer, the goroutine, the writer on behalf of which it was made, and the data
(`none` for a flush). Kept only for stating theorems (`mu`, writer.go 133-149). -/
structure WEvent where
  w : Nat
  thread : Nat
  child : Option Nat
  data : Option Bytes
  deriving DecidableEq

/-- writer.go 114-119 -/
structure WState where
  term : Bytes
  buf : Nat → Bytes
  held : Nat → Option Nat
  thr : Nat → WThread
  evs : List WEvent

/-- change a function at one place (for the states of writer.go 71-74) -/
def updAt {α : Type} (f : Nat → α) (i : Nat) (v : α) : Nat → α := fun j => if j = i then v else f j

/-- the new partial line of a writer and the lines it hands to its destination: `process` or `flush` with the `emit` of
writer.go 135-149, which writes prefix, line and newline with one call -/
def Writers.handle (S : Writers) (w : Nat) (part : Bytes) (data : Option Bytes) : Bytes × List Bytes :=
  let r := match data with
    | some d => process (S.clean w) part d
    | none => flush (S.clean w) part
  (r.1, r.2.map fun l => S.pre w ++ l ++ [nl])

/-- writer.go 135-149: goroutine `t` calls `Write` or `Flush` of `w`; nothing happens while the mutex is held -/
def Writers.enter (S : Writers) (st : WState) (t w : Nat) (child : Option Nat) (data : Option Bytes)
    (stack : List WFrame) (todo : List (Nat × Option Bytes)) : Option WState :=
  match st.held (S.lock w) with
  | some _ => none
  | none =>
    let r := S.handle w (st.buf w) data
    some { term := st.term
           buf := updAt st.buf w r.1
           held := updAt st.held (S.lock w) (some t)
           thr := updAt st.thr t ⟨⟨w, r.2⟩ :: stack, todo⟩
           evs := st.evs ++ [⟨w, t, child, data⟩] }

/-- one step of goroutine `t`, `none` if it is blocked or finished (writer.go 133-149) -/
def Writers.step (S : Writers) (st : WState) (t : Nat) : Option WState :=
  match (st.thr t).stack with
  | ⟨w, []⟩ :: fs =>
    some { st with held := updAt st.held (S.lock w) none, thr := updAt st.thr t ⟨fs, (st.thr t).todo⟩ }
  | ⟨w, line :: ls⟩ :: fs =>
    match S.parent w with
    | some p => S.enter st t p (some w) (some line) (⟨w, ls⟩ :: fs) (st.thr t).todo
    | none =>
      match line with
      | [] => some { st with thr := updAt st.thr t ⟨⟨w, ls⟩ :: fs, (st.thr t).todo⟩ }
      | b :: bs => some { st with term := st.term ++ [b], thr := updAt st.thr t ⟨⟨w, bs :: ls⟩ :: fs, (st.thr t).todo⟩ }
  | [] =>
    match (st.thr t).todo with
    | [] => none
    | (w, data) :: rest => S.enter st t w none data [] rest

/-- nothing written yet, every goroutine `t` about to make the calls `prog t` (parallel.go 131, 150-151) -/
def Writers.init (prog : Nat → List (Nat × Option Bytes)) : WState where
  term := []
  buf := fun _ => []
  held := fun _ => none
  thr := fun t => ⟨[], prog t⟩
  evs := []

/-- run the goroutines in the order given, skipping steps that are not possible (parallel.go 135-162) -/
def Writers.sched (S : Writers) : List Nat → WState → WState
  | [], st => st
  | t :: ts, st => S.sched ts ((S.step st t).getD st)

/-! ### Cleaning -/

/-- writer.go 60-62 `isUnsafeControl` -/
def isUnsafeControl (r : Char) : Bool := r.toNat < 0x20 && r ≠ '\t' && r ≠ '\x1b'

/-- writer.go 46-58 `stripControlChars` -/
def stripControlChars (s : Str) : Str :=
  if !s.any isUnsafeControl then s else s.filter (fun r => !isUnsafeControl r)

/-- one step of `ansi.DecodeSequence`: the sequence found, whether the command of the parser ends in `m`, and
the new state (writer.go 28) -/
structure Decoded where
  seq : Str
  isM : Bool
  state : Nat

/-- `ansi.DecodeSequence` as a function of state and input (writer.go 28) -/
abbrev Decoder := Nat → Str → Decoded

/-- `ansi.HasCsiPrefix` (used in writer.go 33). The function also looks for the single byte `0x9b`. In valid UTF-8 this byte is
never the first of a character, so no sequence begins with it: the character U+009B is the bytes `0xc2 0x9b`. -/
def hasCsiPrefix : Str → Bool
  | '\x1b' :: '[' :: _ => true
  | _ => false

/-- `ansi.HasEscPrefix` (used in writer.go 37). The other three tests of writer.go 37-38 (`HasOscPrefix`, `HasDcsPrefix`,
`HasApcPrefix`) look for an escape character as well, or for the single bytes `0x9d`, `0x90`, `0x9f`, about which the same
holds as about `0x9b`. -/
def hasEscPrefix : Str → Bool
  | '\x1b' :: _ => true
  | _ => false

/-- writer.go 27-42: the loop of `sanitizeLine`. The first argument bounds the number of iterations. -/
def sanitizeLoop (dec : Decoder) : Nat → Nat → Str → Str
  | 0, _, _ => []
  | fuel + 1, state, input =>
    if input = [] then []
    else
      let d := dec state input
      if d.seq.length = 0 then []
      else
        let keep :=
          if hasCsiPrefix d.seq then (if d.isM then d.seq else [])
          else if !hasEscPrefix d.seq then d.seq
          else []
        keep ++ sanitizeLoop dec fuel d.state (input.drop d.seq.length)

/-- writer.go 18-44 `sanitizeLine` -/
def sanitizeLine (dec : Decoder) (line : Str) : Str :=
  if !line.contains '\x1b' && !line.contains '\x9b' then stripControlChars line
  else stripControlChars (sanitizeLoop dec (line.length + 1) 0 line)

/-- writer.go 64-69 `cleanLine`; `strip` stands for `ansi.Strip` -/
def cleanLine (dec : Decoder) (strip : Str → Str) (line : Str) (noColor : Bool) : Str :=
  if noColor then strip line else sanitizeLine dec line

/-! ### Keys and colours -/

/-- parallel.go 26-32 `pathToKey` -/
def pathToKey (path : List Nat) : Str := ['.'].intercalate (path.map fun v => (Nat.repr v).toList)

/-- theme/theme.go 18-27 `ParallelBaseColors` -/
def parallelBaseColors : List Nat := [212, 43, 141, 220, 82, 208, 51, 199]

/-- writer.go 208-216: one step of the loop of `dimColor` on each component -/
def dimStep (x : Nat) : Nat := (x * 3) / 5

/-- the loop of `dimColor` (writer.go 197-220) -/
def dimTimes : Nat → Nat → Nat
  | 0, x => x
  | n + 1, x => dimTimes n (dimStep x)

/-- writer.go 197-220 `dimColor` on indexed colours -/
def dimColor (code steps : Nat) : Nat :=
  if code < 16 ∨ code > 231 then code
  else
    let ci := code - 16
    let r := dimTimes steps (ci / 36)
    let g := dimTimes steps ((ci % 36) / 6)
    let b := dimTimes steps (ci % 6)
    (16 + 36 * r + 6 * g + b) % 256

/-- writer.go 184-195 `colorForPath` -/
def colorForPath : List Nat → Nat
  | [] => parallelBaseColors.headD 0
  | i :: rest =>
    let base := parallelBaseColors.getD (i % parallelBaseColors.length) 0
    if rest.length = 0 then base else dimColor base rest.length

end Bab
