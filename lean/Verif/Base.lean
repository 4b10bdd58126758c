/-
Shared conventions of the model: text, Go maps, errors.
-/

deriving instance DecidableEq for Except

namespace Bab

/-- Go `string` used as text. Valid UTF-8 is assumed, so a string is a list of code points. -/
abbrev Str := List Char

/-- Go `map[string]β`. Iteration (`for k, v := range m`) visits the list in order; since Go
randomises the order, theorems quantify over every list. -/
abbrev GoMap (β : Type) := List (Str × β)

namespace GoMap
variable {β : Type}

/-- `v, ok := m[k]` -/
def get? : GoMap β → Str → Option β
  | [], _ => none
  | (k', v) :: m, k => if k' = k then some v else get? m k

/-- `_, ok := m[k]` -/
def has (m : GoMap β) (k : Str) : Bool := (get? m k).isSome

/-- `m[k] = v` -/
def set : GoMap β → Str → β → GoMap β
  | [], k, v => [(k, v)]
  | (k', v') :: m, k, v => if k' = k then (k, v) :: m else (k', v') :: set m k v

/-- `delete(m, k)` -/
def del (m : GoMap β) (k : Str) : GoMap β := m.filter (fun p => p.1 ≠ k)

/-- the keys in iteration order -/
def keys (m : GoMap β) : List Str := m.map Prod.fst

/-- A Go map never holds a key twice. -/
def WF (m : GoMap β) : Prop := (keys m).Nodup

end GoMap

/-- what `fmt.Errorf("...: %w", err)` puts in front of an error; the texts are in `Model/Message` -/
inductive Where
  /-- condition.go 28 -/
  | condition
  /-- runner.go 162 -/
  | taskCond (task : Str)
  /-- runner.go 190 -/
  | dep (name : Str)
  /-- runner.go 226 -/
  | cancelled
  /-- runner.go 256 -/
  | prompt (task name : Str)
  /-- runner.go 313 -/
  | dirOf (task cmd : Str)
  /-- runner.go 335 and 339 -/
  | command (task text : Str)
  /-- runner.go 354 -/
  | itemCond (task : Str) (index : Nat)
  /-- runner.go 444 -/
  | dirText
  /-- parallel.go 158 and 267 -/
  | item (label : Str)
  /-- parallel.go 210 -/
  | view
  /-- parallel.go 353 -/
  | preDep (name : Str)
  /-- the place in front of an error about a variable (errs/interpolate.go 21-37, 58-74): the line; the file is always the
  main Babfile (`r.BabfilePath`) -/
  | place (line : Nat)
  deriving DecidableEq, Repr

/-- Go `error` values, by kind. `wrap` is `fmt.Errorf("...: %w", err)` with the place that wraps; the line of an error about
a variable is written as a wrapper as well. -/
inductive Err where
  /-- internal/errs/interpolate.go: VarNotFoundError -/
  | varNotFound (name : Str)
  /-- internal/errs/interpolate.go: VarCycleError -/
  | varCycle (name : Str) (chain : List Str)
  /-- internal/errs/errs.go: TaskNotFoundError -/
  | taskNotFound (name : Str)
  /-- internal/errs/errs.go: CircularDepError -/
  | circularDep (chain : List Str)
  /-- context.Canceled -/
  | canceled
  /-- a command finished with a non-zero status or could not be started -/
  | exit (code : Nat)
  /-- `task %q has no run items for platform %q` (runner.go 287) -/
  | noItems (task : Str)
  /-- `task %q has an empty command` (runner.go 297) -/
  | emptyCmd (task : Str)
  /-- errors of resolveDir (runner.go 427-465) -/
  | badDir (dir : Str)
  /-- `parallel item references unknown task %q` (parallel.go 342) -/
  | parallelUnknown (task : Str)
  /-- `unsupported run item type: %T` (parallel.go 329) -/
  | unsupported
  /-- an error of the prompt library or of non-interactive prompting -/
  | prompt (reason : Nat)
  /-- the parallel view could not be started (parallel.go 208) -/
  | tui
  /-- the model ran out of fuel; proved unreachable -/
  | fuel
  /-- `fmt.Errorf("... %w", e)` -/
  | wrap (at_ : Where) (e : Err)
  deriving DecidableEq, Repr

/-- an error about a variable gets the line of the context (interpolate.go 29-34, 84-85, 135, 143); the other fields of
the context are in `Ctx` (Model/Interpolate) -/
def Err.placed (line : Nat) : Err → Err
  | .varNotFound x => .wrap (.place line) (.varNotFound x)
  | .varCycle x chain => .wrap (.place line) (.varCycle x chain)
  | .wrap w e => .wrap w (e.placed line)
  | e => e

/-- a result whose errors have the line of the context -/
def placed {α : Type} (line : Nat) : Except Err α → Except Err α
  | .error e => .error (e.placed line)
  | .ok a => .ok a

@[simp] theorem placed_ok {α : Type} (l : Nat) (a : α) : placed l (.ok a) = .ok a := rfl
@[simp] theorem placed_error {α : Type} (l : Nat) (e : Err) : placed l (.error e : Except Err α) = .error (e.placed l) := rfl

theorem of_placed_ok {α : Type} {l : Nat} {r : Except Err α} {a : α} (h : placed l r = .ok a) : r = .ok a := by
  cases r with
  | error e => cases h
  | ok b => exact h

theorem of_placed_error {α : Type} {l : Nat} {r : Except Err α} {e : Err} (h : placed l r = .error e) :
    ∃ e', r = .error e' ∧ e = e'.placed l := by
  cases r with
  | error e' => cases h; exact ⟨e', rfl, rfl⟩
  | ok b => cases h

attribute [irreducible] placed

end Bab
