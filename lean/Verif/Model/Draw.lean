import Verif.Model.View
import Verif.Model.Condition
/-
Model of the drawing of parallel views: internal/tui/parallel.go `statusIcon`, parallel_grouped.go and parallel_tabs.go, and
of the summary in internal/output/output.go. Styles, borders and the cutting of long lines (`truncateLine`) are left out: a
drawing is a list of rows.
-/

namespace Bab.View
open Bab

/-- the symbols ⊘ ✗ ✓ ∙ ◦ (tui/parallel.go 194-209) -/
inductive Icon
  | cancelled
  | failed
  | ok
  | waiting
  | running
deriving DecidableEq

/-- parallel.go 194-209 `statusIcon` -/
def statusIcon (it : Item) (cancelled : Bool) : Icon :=
  if it.done = true ∧ it.outcome ≠ .ok ∧ it.outcome = .cancelled then .cancelled
  else if it.done = true ∧ it.outcome ≠ .ok then .failed
  else if it.done = true then .ok
  else if cancelled = true then .cancelled
  else if it.started = false then .waiting
  else .running

/-- parallel_grouped.go 12 `groupedMaxLines` -/
def groupedMaxLines : Nat := 5

/-- a row of the grouped view (tui/parallel_grouped.go 44-128) -/
inductive Row
  /-- `┌─ label ✓` -/
  | title (label : Str) (icon : Icon)
  /-- a line of output, after `│` -/
  | line (text : Str)
  /-- an empty row that keeps the height -/
  | pad
  /-- `└` -/
  | bottom
  /-- a nested item, indented by `depth` -/
  | compact (depth : Nat) (label : Str) (icon : Icon) (snippet : Option Str)
deriving DecidableEq

/-- parallel_grouped.go 97-128 `renderCompactLine`; the snippet is the last line that is not blank -/
def compactRow (it : Item) (cancelled : Bool) (depth : Nat) : Row :=
  .compact depth it.label (statusIcon it cancelled)
    (if it.done = true ∧ it.outcome = .ok then none else it.lines.reverse.find? (fun l => trimSpace l ≠ []))

/-- parallel_grouped.go 44-95 `renderItem` with a bound on the depth of the recursion -/
def renderItem (b : Base) : Nat → Str → Nat → Option (List Row)
  | 0, _, _ => none
  | fuel + 1, key, depth =>
    match b.items.get? key with
    | none => some []
    | some it =>
      if depth > 0 then
        (it.children.mapM (fun ck => renderItem b fuel ck (depth + 1))).map (fun rs => compactRow it b.cancelled depth :: rs.flatten)
      else
        let title := Row.title it.label (statusIcon it b.cancelled)
        if it.children.length > 0 then
          (it.children.mapM (fun ck => renderItem b fuel ck 1)).map (fun rs => title :: rs.flatten ++ [.bottom])
        else
          let pads := if it.done = false ∧ it.lines.length > 0 ∧ it.lines.length < groupedMaxLines then
            List.replicate (groupedMaxLines - it.lines.length) Row.pad else []
          some (title :: it.lines.map .line ++ pads ++ [.bottom])

/-- parallel_grouped.go 33-42 `View`; `none` is a recursion without end -/
def drawGrouped (b : Base) : Option (List Row) :=
  if b.done = true then some []
  else (b.roots.mapM (fun key => renderItem b (longest b.items + 2) key 0)).map List.flatten

/-- parallel_tabs.go 130-156: the titles of the tabs, and which one is active -/
def tabTitles (t : Tabs) : List (Bool × Str × Icon) :=
  t.base.roots.zipIdx.filterMap fun q =>
    match t.base.items.get? q.1 with
    | none => none
    | some it => some (decide ((q.2 : Int) = t.active), it.label, statusIcon it t.base.cancelled)

/-- what is shown next to a nested item in a tab: its error, its last line, or nothing (tui/parallel_tabs.go 198-219) -/
inductive Note
  | none
  | error
  | last (line : Str)
deriving DecidableEq

/-- the content of a tab (tui/parallel_tabs.go 198-230) -/
inductive Content
  /-- the item is not there -/
  | empty
  /-- "Waiting…" -/
  | waiting
  /-- "Running…" -/
  | running
  | lines (ls : List Str)
  | nested (rows : List (Str × Icon × Note))
deriving DecidableEq

/-- parallel_tabs.go 198-230 `buildContent` -/
def buildContent (b : Base) (it : Item) : Content :=
  if it.children.length > 0 then
    .nested (it.children.filterMap fun ck =>
      match b.items.get? ck with
      | none => none
      | some child =>
        some (child.label, statusIcon child b.cancelled,
          if child.done = true ∧ child.outcome ≠ .ok then .error
          else match child.lines.getLast? with
            | some l => if trimSpace l ≠ [] then .last l else .none
            | none => .none))
  else if it.lines.length = 0 then (if it.started = false then .waiting else .running)
  else .lines it.lines

/-- parallel_tabs.go 71-107 `updateViewport`: the content it sets, for the active tab -/
def tabContent (t : Tabs) : Content :=
  match t.base.roots[t.active.toNat]? with
  | none => .empty
  | some key =>
    match t.base.items.get? key with
    | none => .empty
    | some it => buildContent t.base it

/-- output.go 87-111 `RenderParallelDone`: the labels with their symbols; `none` is the empty text -/
def renderParallelDone (labels : List Str) (errs : List Outcome) : Option (List (Str × Icon)) :=
  if errs.length ≠ labels.length then none
  else some (List.zipWith (fun l o => (l, if o ≠ .ok then (if o = .cancelled then Icon.cancelled else .failed) else .ok)) labels errs)

end Bab.View
