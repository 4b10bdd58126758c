import Verif.Base
/-
The functions of Go's path/filepath that the code uses, on Unix paths: `IsAbs`, `Clean`, `Join`,
`Dir`, `Base`. These are library functions; they are modelled by the documented rules on path elements
rather than by the byte loop of the library.
-/

namespace Bab

/-- the elements between slashes, empty ones included; `cur` is the element being read, reversed
(used for `filepath.Clean`, parser.go 31) -/
def splitSlash (cur : Str) : Str → List Str
  | [] => [cur.reverse]
  | c :: r => if c = '/' then cur.reverse :: splitSlash [] r else splitSlash (c :: cur) r

/-- `filepath.IsAbs` on Unix (used in include.go 13 and runner.go 447) -/
def isAbs (p : Str) : Bool := p.head? = some '/'

/-- the rules of `filepath.Clean` on elements: drop empty and `.` elements, let `..` remove the
element before it, drop `..` at the root, keep leading `..` of relative paths. `out` is reversed
(used for `filepath.Clean`, parser.go 31). -/
def cleanElems (rooted : Bool) : List Str → List Str → List Str
  | out, [] => out.reverse
  | out, e :: es =>
    if e = [] ∨ e = ".".toList then cleanElems rooted out es
    else if e = "..".toList then
      match out with
      | [] => if rooted then cleanElems rooted [] es else cleanElems rooted [e] es
      | o :: os => if o = "..".toList then cleanElems rooted (e :: out) es
          else cleanElems rooted os es
    else cleanElems rooted (e :: out) es

/-- elements joined by slashes (used for `filepath.Clean`, parser.go 31) -/
def joinSlash : List Str → Str
  | [] => []
  | [e] => e
  | e :: es => e ++ '/' :: joinSlash es

/-- `filepath.Clean` (used in parser.go 31, include.go 16 and runner.go 451) -/
def cleanPath (p : Str) : Str :=
  let es := cleanElems (isAbs p) [] (splitSlash [] p)
  if isAbs p then '/' :: joinSlash es
  else if es = [] then ".".toList else joinSlash es

/-- `filepath.Join(a, b)` (used in include.go 14 and runner.go 448) -/
def joinPath (a b : Str) : Str :=
  if a = [] then (if b = [] then [] else cleanPath b)
  else if b = [] then cleanPath a
  else cleanPath (a ++ '/' :: b)

/-- `filepath.Dir`: everything up to the last slash, cleaned (used in parser.go 96, runner.go 428 and finder.go 36) -/
def dirPath (p : Str) : Str :=
  cleanPath (p.reverse.dropWhile (· ≠ '/')).reverse

/-- `filepath.Base`: the last element (used in parser.go 131, 134) -/
def basePath (p : Str) : Str :=
  if p = [] then ".".toList
  else
    let b := ((p.reverse.dropWhile (· = '/')).takeWhile (· ≠ '/')).reverse
    if b = [] then "/".toList else b

end Bab
