import Verif.Model.Update
/-
Model of update checks over many invocations of bab: cmd/root.go 44-58 starts the background request, runs the command, and shows a
notice from the cache file, without waiting for the request. Invocations do not overlap here (C52 is about those that do).
-/

namespace Bab.Update

/-- one invocation (cmd/root.go 44-58); times are in nanoseconds -/
structure Invocation where
  env : Str → Str
  current : Str
  /-- when `StartBackgroundRefresh` looks at the clock -/
  start : Int
  /-- when `CheckCached` looks at the clock -/
  stop : Int
  /-- what the server answers, if it is asked -/
  answer : Answer
  /-- when `refreshCache` saves the answer; `none` if bab has ended before, or the file cannot be written -/
  saved : Option Int

section
variable {V : Type} (decode : List UInt8 → Option Cached) (encode : Cached → List UInt8) (parse : Str → Option V) (gt : V → V → Bool)

/-- update.go 27-35, called in cmd/root.go 47: is the server asked? -/
def asks (file : Option (List UInt8)) (r : Invocation) : Bool := (startRefresh r.env decode file r.start r.current).isSome

/-- update.go 27-35 and 94-109: the cache file after the invocation; `encode` is `json.Marshal` (cache.go 62) -/
def fileAfter (file : Option (List UInt8)) (r : Invocation) : Option (List UInt8) :=
  match startRefresh r.env decode file r.start r.current, r.saved with
  | some cached, some t => match refreshCache r.answer cached t with
    | some c => some (encode c)
    | none => file
  | _, _ => file

/-- cmd/root.go 51-55: the notice at the end of the invocation -/
def notice (file : Option (List UInt8)) (r : Invocation) : Option Info :=
  checkCached r.env decode parse gt (fileAfter decode encode file r) r.stop r.current

/-- the cache file after several invocations (cmd/root.go 44-58) -/
def filesAfter (file : Option (List UInt8)) (rs : List Invocation) : Option (List UInt8) := rs.foldl (fileAfter decode encode) file

end

end Bab.Update
