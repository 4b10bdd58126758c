import Verif.Model.Message
/-
Model of main.go: from the error of the invocation to the exit status and the messages. Go errors are trees: an error can
wrap one other error (`fmt.Errorf` with `%w`, `ParseError`) or several (`ValidationErrors`).
-/

namespace Bab

/-- a Go error value; `canceled` is `context.Canceled`, `plain` any other error that wraps nothing, `many` an
`errs.ValidationErrors` (errs/errs.go 27-58) -/
inductive GoErr where
  | canceled
  | plain (msg : Str)
  | wrap (msg : Str) (e : GoErr)
  | many (es : List GoErr)

mutual
/-- `errors.Is(err, context.Canceled)`: the `Is` methods of the project's error types (errs/parse.go, errs/interpolate.go)
answer false for this target, so only comparison and unwrapping matter (main.go 21-23) -/
def GoErr.isCanceled : GoErr → Bool
  | .canceled => true
  | .plain _ => false
  | .wrap _ e => e.isCanceled
  | .many es => GoErr.anyCanceled es
/-- the loop of `errors.Is` over several wrapped errors (main.go 21-23) -/
def GoErr.anyCanceled : List GoErr → Bool
  | [] => false
  | e :: es => e.isCanceled || GoErr.anyCanceled es
end

/-- `errors.As(err, &verrs)` (main.go 57-58) -/
def GoErr.asMany : GoErr → Option (List GoErr)
  | .canceled => none
  | .plain _ => none
  | .wrap _ e => e.asMany
  | .many es => some es

mutual
/-- `err.Error()`; the text of a wrapping error is kept with it (main.go 65; errs/errs.go 31-37) -/
def GoErr.text : GoErr → Str
  | .canceled => "context canceled".toList
  | .plain m => m
  | .wrap m e => m ++ e.text
  | .many es => GoErr.texts es
/-- `strings.Join(msgs, "\n")` (errs/errs.go 31-37) -/
def GoErr.texts : List GoErr → Str
  | [] => []
  | [e] => e.text
  | e :: es => e.text ++ '\n' :: GoErr.texts es
end

/-- main.go 56-68 `handleError`: the messages logged -/
def handleError (e : GoErr) : List Str :=
  match e.asMany with
  | some es => es.map GoErr.text
  | none => if e.text ≠ [] then [e.text] else []

/-- main.go 29-54 `run`: exit status and messages -/
def exitStatus : Option GoErr → Nat × List Str
  | none => (0, [])
  | some e => if e.isCanceled then (0, []) else (1, handleError e)

/-- the Go error behind an error of the runner's model
(the errors made in runner.go and runner/parallel.go, e.g. runner.go 335) -/
def Err.toGo (x : Texts) : Err → GoErr
  | .canceled => .canceled
  | .wrap w e => .wrap (w.text x) (e.toGo x)
  | e => .plain (e.leafText x)

end Bab
