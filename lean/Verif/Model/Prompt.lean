import Verif.Model.Babfile
import Verif.Model.Interpolate
/-
Model of the parts of internal/tui/prompt.go that do not talk to the terminal library, and of
runner.go 365-409 `interpolatePrompt`.
-/

namespace Bab

/-- `strings.ToLower` on ASCII letters. This is enough for `normalizeConfirmDefault`: the only other
characters whose lower case is an ASCII letter lower to k or i, which occur in none of its words
(used in tui/prompt.go 75). -/
def lowerAscii (s : Str) : Str := s.map (fun c => if 'A' ≤ c ∧ c ≤ 'Z' then Char.ofNat (c.toNat + 32) else c)

/-- prompt.go 74-82 `normalizeConfirmDefault` -/
def normalizeConfirmDefault (s : Str) : Str :=
  if lowerAscii s ∈ ["true".toList, "yes".toList, "y".toList, "1".toList] then "true".toList
  else "false".toList

/-- `strings.Join(xs, ",")` (used in tui/prompt.go 64, 205) -/
def joinComma : List Str → Str
  | [] => []
  | [x] => x
  | x :: xs => x ++ ',' :: joinComma xs

/-- prompt.go 50-72 `handleNonInteractive`. The error kinds: 0 default missing, 1 defaults missing,
2 password, 3 unknown type. -/
def handleNonInteractive (p : PromptRun) : Except Err Str :=
  match p.type with
  | .confirm =>
    if p.default ≠ [] then .ok (normalizeConfirmDefault p.default) else .error (.prompt 0)
  | .input | .select | .number =>
    if p.default ≠ [] then .ok p.default else .error (.prompt 0)
  | .multiselect =>
    if p.defaults ≠ [] then .ok (joinComma p.defaults) else .error (.prompt 1)
  | .password => .error (.prompt 2)
  | .other => .error (.prompt 3)

/-- interpolate every text of a list, in order (runner.go 386-406) -/
def interpolateList (ctx : Ctx) : List Str → Except Err (List Str)
  | [] => .ok []
  | s :: ss =>
    match interpolate s ctx with
    | .error e => .error e
    | .ok o =>
      match interpolateList ctx ss with
      | .error e => .error e
      | .ok os => .ok (o :: os)

/-- interpolate unless empty (runner.go 372-384) -/
def interpolateOpt (ctx : Ctx) (s : Str) : Except Err Str :=
  if s = [] then .ok [] else interpolate s ctx

/-- runner.go 365-409 `interpolatePrompt` -/
def interpolatePrompt (p : PromptRun) (ctx : Ctx) : Except Err PromptRun := do
  let msg ← interpolate p.message ctx
  let d ← interpolateOpt ctx p.default
  let ph ← interpolateOpt ctx p.placeholder
  let os ← interpolateList ctx p.options
  let ds ← interpolateList ctx p.defaults
  return { p with message := msg, default := d, placeholder := ph, options := os, defaults := ds }

end Bab
