import Verif.Base
/-
Model of internal/interpolate/interpolate.go (expansion part).
-/

namespace Bab

/-- `\s` of RE2 in Pattern (interpolate.go 11): `[\t\n\f\r ]`. -/
def isReSpace (c : Char) : Bool :=
  c = ' ' || c = '\t' || c = '\n' || c = '\r' || c = '\x0c'

/-- `[a-zA-Z_]` (interpolate.go 11) -/
def isNameStart (c : Char) : Bool :=
  ('a' ≤ c && c ≤ 'z') || ('A' ≤ c && c ≤ 'Z') || c = '_'

/-- `[a-zA-Z0-9_.]` (interpolate.go 11) -/
def isNameChar (c : Char) : Bool :=
  isNameStart c || ('0' ≤ c && c ≤ '9') || c = '.'

/-- interpolate.go 11 `Pattern`, matched at the start of the text: the captured name and the text
after the match. The classes on both sides of each repetition are disjoint, so the greedy match
without backtracking is the regexp's match. -/
def matchRef : Str → Option (Str × Str)
  | '$' :: '{' :: '{' :: r =>
    let r1 := r.dropWhile isReSpace
    match r1 with
    | [] => none
    | c :: _ =>
      if isNameStart c then
        let name := r1.takeWhile isNameChar
        match (r1.dropWhile isNameChar).dropWhile isReSpace with
        | '}' :: '}' :: r2 => some (name, r2)
        | _ => none
      else none
  | _ => none

/-- interpolate.go 14 `escapePlaceholder` -/
def escapePlaceholder : Str := '\x00' :: ("ESCAPED_BRACE".toList ++ ['\x00'])

/-- interpolate.go 43: `EscapePattern.ReplaceAllString(input, escapePlaceholder)`. -/
def replaceEscapes : Str → Str
  | '$' :: '$' :: '{' :: '{' :: r => escapePlaceholder ++ replaceEscapes r
  | c :: r => c :: replaceEscapes r
  | [] => []

/-- interpolate.go 45-58: `Pattern.ReplaceAllStringFunc` with the closure that looks the name up,
collects errors and leaves the match in place on an error. The first argument counts characters of
the current match still to be skipped. -/
def substRefs (look : Str → Except Err Str) : Nat → Str → Str × List Err
  | _, [] => ([], [])
  | n + 1, _ :: r => substRefs look n r
  | 0, c :: r =>
    match matchRef (c :: r) with
    | some (name, rest) =>
      let len := (c :: r).length - rest.length
      let tail := substRefs look (len - 1) r
      match look name with
      | .ok v => (v ++ tail.1, tail.2)
      | .error e => ((c :: r).take len ++ tail.1, e :: tail.2)
    | none =>
      let tail := substRefs look 0 r
      (c :: tail.1, tail.2)

/-- `strings.ReplaceAll(s, old, new)` for non-empty `old`; leftmost, non-overlapping (used in interpolate.go 43, 60). -/
def replaceAll (old new : Str) : Nat → Str → Str
  | _, [] => []
  | n + 1, _ :: r => replaceAll old new n r
  | 0, c :: r =>
    if old.isPrefixOf (c :: r) then new ++ replaceAll old new (old.length - 1) r
    else c :: replaceAll old new 0 r

/-- What interpolation can see: `ctx.Vars` and the process environment. `os.Getenv` of an unset
name is the empty string (interpolate.go 16-20, 71). -/
structure Ctx where
  vars : GoMap Str
  env : Str → Option Str

/-- interpolate.go 68-89 `resolveVar` -/
def resolveVar (ctx : Ctx) (name : Str) : Except Err Str :=
  if "env.".toList.isPrefixOf name then .ok ((ctx.env (name.drop 4)).getD [])
  else match ctx.vars.get? name with
    | some v => .ok v
    | none => .error (.varNotFound name)

/-- interpolate.go 36-66 `Interpolate`; the pair (result, err). -/
def interpolateFull (input : Str) (ctx : Ctx) : Str × Option Err :=
  let r1 := replaceEscapes input
  let r2 := substRefs (resolveVar ctx) 0 r1
  let r3 := replaceAll escapePlaceholder "${{".toList 0 r2.1
  (r3, r2.2.head?)

/-- `Interpolate` as its callers use it: they look at the error first (interpolate.go 36-66). -/
def interpolate (input : Str) (ctx : Ctx) : Except Err Str :=
  match interpolateFull input ctx with
  | (_, some e) => .error e
  | (s, none) => .ok s

/-- interpolate.go 197-206 `ExtractVarRefs`; the same matches are used by
`ResolveVarsWithLocation` (interpolate.go 150). -/
def extractVarRefs : Nat → Str → List Str
  | _, [] => []
  | n + 1, _ :: r => extractVarRefs n r
  | 0, c :: r =>
    match matchRef (c :: r) with
    | some (name, rest) => name :: extractVarRefs ((c :: r).length - rest.length - 1) r
    | none => extractVarRefs 0 r

/-- interpolate.go 193-195 `ContainsVarRef` -/
def containsVarRef (s : Str) : Bool := !(extractVarRefs 0 s).isEmpty

end Bab
