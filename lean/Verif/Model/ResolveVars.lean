import Verif.Model.Interpolate
/-
Model of internal/interpolate/interpolate.go, lines 95-191: `ResolveVarsWithLocation`.
-/

namespace Bab

/-- The variables captured by the closure `resolveOne` (interpolate.go 103-110).
The two `map[string]bool` are lists of the names mapped to `true`. -/
structure RState where
  resolved : GoMap Str
  resolvedSet : List Str
  resolving : List Str
  stack : List Str

/-- `set[name] = true` (interpolate.go 146, 166, 179) -/
def addName (s : List Str) (n : Str) : List Str := if n ∈ s then s else n :: s

/-- interpolate.go 150-169: the loop over the references of `raw`. `one` is the recursive call. -/
def resolveRefs (vars : GoMap Str) (one : Str → RState → Except Err (Str × RState)) :
    List Str → RState → Except Err RState
  | [], st => .ok st
  | ref :: refs, st =>
    if "env.".toList.isPrefixOf ref then resolveRefs vars one refs st
    else if vars.has ref then
      match one ref st with
      | .error e => .error e
      | .ok (v, st') =>
        resolveRefs vars one refs { st' with
          resolved := st'.resolved.set ref v
          resolvedSet := addName st'.resolvedSet ref }
    else resolveRefs vars one refs st

/-- interpolate.go 126-182: the closure `resolveOne`. The fuel bounds the recursion depth; it is
proved never to run out (see `C05_resolveVars_error_kind`). -/
def resolveOne (vars parent : GoMap Str) (env : Str → Option Str) :
    Nat → Str → RState → Except Err (Str × RState)
  | 0, _, _ => .error .fuel
  | fuel + 1, name, st =>
    if name ∈ st.resolvedSet then .ok ((st.resolved.get? name).getD [], st)
    else if name ∈ st.resolving then .error (.varCycle name (st.stack ++ [name]))
    else match vars.get? name with
      | none =>
        match parent.get? name with
        | some v => .ok (v, st)
        | none => .error (.varNotFound name)
      | some raw =>
        let st1 := { st with resolving := name :: st.resolving, stack := st.stack ++ [name] }
        match resolveRefs vars (resolveOne vars parent env fuel) (extractVarRefs 0 raw) st1 with
        | .error e => .error e
        | .ok st2 =>
          match interpolate raw ⟨st2.resolved, env⟩ with
          | .error e => .error e
          | .ok v => .ok (v, {
              resolved := st2.resolved.set name v
              resolvedSet := addName st2.resolvedSet name
              resolving := st2.resolving.filter (· ≠ name)
              stack := st2.stack.dropLast })

/-- interpolate.go 184-188: the loop over all names, in the map's iteration order. -/
def resolveAll (one : Str → RState → Except Err (Str × RState)) :
    List Str → RState → Except Err RState
  | [], st => .ok st
  | n :: ns, st =>
    match one n st with
    | .error e => .error e
    | .ok (_, st') => resolveAll one ns st'

/-- interpolate.go 95-191 `ResolveVarsWithLocation`; `vars = none` is a nil map (lines 96-101: the
parent map itself is returned, see Model/Runner for the aliasing). -/
def resolveVars (vars : Option (GoMap Str)) (parent : GoMap Str) (env : Str → Option Str) :
    Except Err (GoMap Str) :=
  match vars with
  | none => .ok parent
  | some vars =>
    match resolveAll (resolveOne vars parent env (vars.length + 1)) vars.keys
        { resolved := parent, resolvedSet := [], resolving := [], stack := [] } with
    | .error e => .error e
    | .ok st => .ok st.resolved

end Bab
