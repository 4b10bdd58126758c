import Verif.Model.Writer
/-
Model of internal/tui/parallel.go and parallel_tabs.go: the state behind the view of parallel items. Colours and errors'
texts are left out; drawing is in `Model/Draw`.
-/

namespace Bab.View
open Bab

/-- what matters of an error: none, `context.Canceled` (or an error that wraps it), any other
(tui/parallel.go 37-40, 194-209) -/
inductive Outcome
  | ok
  | failed
  | cancelled
deriving DecidableEq

/-- parallel.go 67-75 `itemState` -/
structure Item where
  label : Str
  lines : List Str := []
  started : Bool := false
  done : Bool := false
  outcome : Outcome := .ok
  children : List Str := []
deriving DecidableEq

/-- parallel.go 56-65 `baseModel`; `cancels` counts the calls of `cancel` -/
structure Base where
  items : GoMap Item
  roots : List Str
  maxLines : Nat
  done : Bool := false
  cancelled : Bool := false
  cancels : Nat := 0

/-- parallel.go 97-99 `itemKey` -/
def itemKey (i : Nat) : Str := (Nat.repr i).toList

/-- parallel.go 77-95 `newBaseModel` -/
def newBase (labels : List Str) (maxLines : Nat) : Base :=
  { items := labels.zipIdx.map (fun q => (itemKey q.2, { label := q.1 }))
    roots := (List.range labels.length).map itemKey
    maxLines := maxLines }

/-- the messages (tui/parallel.go 21-46, 101-169) -/
inductive Msg
  | register (key parent label : Str)
  | start (key : Str)
  | output (key line : Str)
  | done (key : Str) (outcome : Outcome)
  | clearChildren (key : Str)
  | allDone
  | ctrlC
  | size

/-- parallel.go 171-179 `removeItemTree` with a bound on the depth of the recursion; without bound the recursion ends on
trees only -/
def removeTree : Nat → Str → GoMap Item → Option (GoMap Item)
  | 0, _, _ => none
  | fuel + 1, key, items =>
    match items.get? key with
    | none => some (items.del key)
    | some it => (it.children.foldlM (fun its ck => removeTree fuel ck its) items).map (fun its => its.del key)

/-- the longest key among the children (bounds the recursion of tui/parallel.go 171-179) -/
def longest (items : GoMap Item) : Nat := (items.flatMap (fun q => q.2.children.map List.length)).foldl max 0

/-- parallel.go 143-150 -/
def clearChildren (b : Base) (key : Str) : Option Base :=
  match b.items.get? key with
  | none => some b
  | some it =>
    (it.children.foldlM (fun its ck => removeTree (longest b.items + 1) ck its) b.items).map (fun its =>
      match its.get? key with
      | none => { b with items := its }
      | some it' => { b with items := its.set key { it' with children := [] } })

/-- parallel.go 101-169 `handleMsg`; `none` is a recursion without end -/
def handle (b : Base) : Msg → Option Base
  | .size => some b
  | .register key parent label =>
    let items := b.items.set key { label := label }
    if parent ≠ [] then
      match items.get? parent with
      | some p => some { b with items := items.set parent { p with children := p.children ++ [key], lines := [] } }
      | none => some { b with items := items }
    else some { b with items := items }
  | .start key =>
    match b.items.get? key with
    | some it => some { b with items := b.items.set key { it with started := true } }
    | none => some b
  | .output key line =>
    match b.items.get? key with
    | some it =>
      let lines := it.lines ++ [line]
      let lines := if b.maxLines > 0 ∧ lines.length > b.maxLines then lines.drop (lines.length - b.maxLines) else lines
      some { b with items := b.items.set key { it with lines := lines } }
    | none => some b
  | .done key o =>
    match b.items.get? key with
    | some it => some { b with items := b.items.set key { it with done := true, outcome := o } }
    | none => some b
  | .clearChildren key => clearChildren b key
  | .allDone => some { b with done := true }
  | .ctrlC => if b.cancelled then some b else some { b with cancelled := true, cancels := b.cancels + 1 }

/-- a history of messages (tui/parallel.go 101-169) -/
def history (b : Base) (msgs : List Msg) : Option Base := msgs.foldlM handle b

/-! ### Tabs -/

/-- what the tab view receives (tui/parallel_tabs.go 31-60) -/
inductive TabMsg
  | base (m : Msg)
  /-- the tab key -/
  | next
  /-- shift+tab -/
  | prev
  /-- anything else goes to the viewport -/
  | other

/-- parallel_tabs.go 14-18 `tabsModel`, without the viewport -/
structure Tabs where
  base : Base
  active : Int

/-- parallel_tabs.go 71-80: `updateViewport` keeps the number of the tab in range -/
def Tabs.clamp (t : Tabs) : Tabs :=
  if t.base.roots.length = 0 then t
  else
    let a := if t.active < 0 then 0 else t.active
    { t with active := if a ≥ (t.base.roots.length : Int) then (t.base.roots.length : Int) - 1 else a }

/-- parallel_tabs.go 31-60 `Update` -/
def Tabs.update (t : Tabs) : TabMsg → Option Tabs
  | .base .allDone => (handle t.base .allDone).map (fun b => { t with base := b })
  | .base .ctrlC => (handle t.base .ctrlC).map (fun b => { t with base := b })
  | .base m => (handle t.base m).map (fun b => { t with base := b : Tabs }.clamp)
  | .next =>
    if t.base.roots.length > 0 then some { t with active := (t.active + 1).tmod t.base.roots.length : Tabs }.clamp else some t
  | .prev =>
    if t.base.roots.length > 0 then
      some { t with active := (t.active - 1 + t.base.roots.length).tmod t.base.roots.length : Tabs }.clamp
    else some t
  | .other => some t

end Bab.View
