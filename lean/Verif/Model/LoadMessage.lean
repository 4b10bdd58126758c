import Verif.Model.Parser
import Verif.Model.Main
/-
The texts of the errors of loading: internal/errs/parse.go, with the fields given in parser.go, include.go and validate.go.
-/

namespace Bab

/-- what the messages depend on besides the error (errs/location.go 10-17, errs/suggest.go 8-29) -/
structure LoadTexts where
  /-- `strconv.IsPrint` -/
  isPrint : Char → Bool
  /-- `os.Getwd`, unless it fails -/
  cwd : Option Str
  /-- the path that was given to `Parse` -/
  arg : Str
  /-- the text of the error of `os.ReadFile` -/
  read : Str → Str
  /-- what becomes of an error of `unmarshalBabfile` (parser.go 65-88) -/
  invalid : Str → GoErr
  /-- errs/suggest.go 8-29 `FindSimilar` with the names of the tasks, see C50; empty if there is no suggestion -/
  similar : Str → Str

/-- parse.go 78-81: the suggestion behind the message -/
def LoadTexts.suggestion (x : LoadTexts) (name : Str) : Str :=
  if x.similar name = [] then [] else " (did you mean ".toList ++ quote x.isPrint (x.similar name) ++ "?)".toList

/-- the texts of the errors of validation (errs/parse.go 47-53, 67-84, 113-116, 131-135) -/
def PlacedErr.text (x : LoadTexts) (e : PlacedErr) : Str :=
  match e.err with
  -- parse.go 67-84
  | .notFound n _ =>
    (if e.at_.path = [] then [] else formatLocation x.cwd { path := e.at_.path, line := e.at_.line } ++ ": ".toList) ++
      "task ".toList ++ quote x.isPrint n ++ " not found".toList ++ x.suggestion n
  -- parse.go 47-53
  | .cycle chain =>
    (if e.at_.path = [] then [] else relativePath x.cwd e.at_.path ++ ": ".toList) ++ "circular dependency: ".toList ++ joinArrow chain
  -- parse.go 113-116
  | .aliasConflict a t =>
    relativePath x.cwd e.at_.path ++ ':' :: (Nat.repr e.at_.line).toList ++ ": alias ".toList ++ quote x.isPrint a ++ " for task ".toList ++
      quote x.isPrint t ++ " conflicts with existing task name".toList
  -- parse.go 131-135
  | .aliasTwice a t o =>
    relativePath x.cwd e.at_.path ++ ':' :: (Nat.repr e.at_.line).toList ++ ": alias ".toList ++ quote x.isPrint a ++ " for task ".toList ++
      quote x.isPrint t ++ " already defined by task ".toList ++ quote x.isPrint o ++ " at line ".toList ++ (Nat.repr e.first).toList

/-- the Go error behind an error of loading. A `ParseError` with a cause shows the place and the cause, without its own
message (parse.go 16-22): the namespace of a failed include is not shown. -/
def PErr.toGo (x : LoadTexts) : PErr → GoErr
  | .pathEmpty => .wrap (relativePath x.cwd x.arg ++ ": ".toList) (.plain "path cannot be empty".toList)
  | .notFound p => .wrap (relativePath x.cwd p ++ ": ".toList) (.plain (x.read p))
  | .invalid p => x.invalid p
  | .circular p chain => .plain (relativePath x.cwd p ++ ": circular include: ".toList ++ joinArrow chain)
  | .collision p name => .plain (relativePath x.cwd p ++ ": task name collision: ".toList ++ name)
  | .inInclude p _ e => .wrap (relativePath x.cwd p ++ ": ".toList) (e.toGo x)
  | .validation errs => .many (errs.map fun e => .plain (e.text x))
  | .fuel => .plain []

end Bab
