import Verif.Model.Prompt
import Verif.Model.Unmarshal
/-
Model of internal/tui/prompt.go 27-48 and 84-291: the prompts that are shown on a terminal. The forms of the library
huh are parameters; a form ends with a value, with an abort by the user, or with an error.
-/

namespace Bab.Forms
open Bab

/-- how a form ends (what `form.RunWithContext` gives, tui/prompt.go 84-291) -/
inductive Out (α : Type)
  | done (a : α)
  | aborted
  | failed

/-- The forms of the library. Each one gets its title, the value it starts with, and a check for the value
(tui/prompt.go 84-291). -/
structure Library where
  confirm : (title : Str) → (initial : Bool) → Out Bool
  input : (title placeholder : Str) → (initial : Str) → (valid : Str → Bool) → Out Str
  password : (title : Str) → (valid : Str → Bool) → Out Str
  select : (title : Str) → (options : List Str) → (initial : Str) → Out Str
  multi : (title : Str) → (options initial : List Str) → (valid : List Str → Bool) → Out (List Str)
  /-- `regexp.MatchString` -/
  pattern : Str → Str → Bool
  /-- `strings.ToLower` -/
  lower : Str → Str

/-- the errors (tui/prompt.go 18-20, 27-48) -/
inductive FErr
  | cancelled | form | unknownType | noTTY (e : Err)
  deriving DecidableEq

/-- prompt.go 96-101 and the same lines in the other functions -/
def finish {α : Type} (f : α → Except FErr Str) : Out α → Except FErr Str
  | .done a => f a
  | .aborted => .error .cancelled
  | .failed => .error .form

/-- `strconv.FormatBool` (used in tui/prompt.go 84-104) -/
def formatBool (b : Bool) : Str := if b then "true".toList else "false".toList

/-- prompt.go 84-104 `runConfirm` -/
def runConfirm (L : Library) (p : PromptRun) (message : Str) : Except FErr Str :=
  let initial := if p.default ≠ [] then decide (normalizeConfirmDefault p.default = "true".toList) else false
  finish (fun b => .ok (formatBool b)) (L.confirm message initial)

/-- prompt.go 106-139 `runInput` -/
def runInput (L : Library) (p : PromptRun) (message : Str) : Except FErr Str :=
  finish .ok (L.input message p.placeholder p.default (fun s => if p.validate ≠ [] then L.pattern p.validate s else true))

/-- prompt.go 141-166 `runSelect` -/
def runSelect (L : Library) (p : PromptRun) (message : Str) : Except FErr Str :=
  finish .ok (L.select message p.options p.default)

/-- prompt.go 185-194: the check of a multiselect form -/
def countOk (p : PromptRun) (selected : List Str) : Bool :=
  (match p.min with | some a => decide (a ≤ selected.length) | none => true) &&
  (match p.max with | some b => decide ((selected.length : Int) ≤ b) | none => true)

/-- prompt.go 168-206 `runMultiselect` -/
def runMultiselect (L : Library) (p : PromptRun) (message : Str) : Except FErr Str :=
  finish (fun xs => .ok (joinComma xs)) (L.multi message p.options p.defaults (fun xs => if p.min ≠ none ∨ p.max ≠ none then countOk p xs else true))

/-- prompt.go 208-247 `runPassword` -/
def runPassword (L : Library) (p : PromptRun) (message : Str) : Except FErr Str :=
  finish (fun result =>
    if p.confirm = some true then
      finish (fun _ => .ok result) (L.password ("Confirm ".toList ++ L.lower message) (fun s => s = result))
    else .ok result) (L.password message (fun _ => true))

/-- prompt.go 258-275: the check of a number form -/
def numberOk (p : PromptRun) (s : Str) : Bool :=
  if s = [] then decide (p.default ≠ [])
  else
    match Yaml.atoi s with
    | none => false
    | some n =>
      (match p.min with | some a => decide (a ≤ n) | none => true) && (match p.max with | some b => decide (n ≤ b) | none => true)

/-- prompt.go 249-291 `runNumber` -/
def runNumber (L : Library) (p : PromptRun) (message : Str) : Except FErr Str :=
  finish .ok (L.input message p.placeholder p.default (numberOk p))

/-- prompt.go 27-48 `RunPrompt` -/
def runPrompt (L : Library) (tty : Bool) (p : PromptRun) (message : Str) : Except FErr Str :=
  if !tty then
    match handleNonInteractive p with
    | .ok s => .ok s
    | .error e => .error (.noTTY e)
  else
    match p.type with
    | .confirm => runConfirm L p message
    | .input => runInput L p message
    | .select => runSelect L p message
    | .multiselect => runMultiselect L p message
    | .password => runPassword L p message
    | .number => runNumber L p message
    | .other => .error .unknownType

end Bab.Forms
