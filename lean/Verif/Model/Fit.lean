import Verif.Model.Draw
/-
Model of the cutting of long lines in the views of parallel items: internal/tui/parallel.go `truncateLine`, parallel_grouped.go and the
titles of parallel_tabs.go. Styles are left out: they take no room. How wide a text is, and where it is cut, is up to the library
charmbracelet/x/ansi and a parameter. The width of the window is a natural number, with 0 for a width that is not known.
-/

namespace Bab.View
open Bab

/-- `ansi.StringWidth`, `ansi.Truncate` with the empty tail and with the tail `…` (parallel.go 188-191, parallel_grouped.go 80, 121) -/
structure Cutter where
  width : Str → Nat
  cut : Str → Nat → Str
  cutDots : Str → Nat → Str

/-- parallel.go 187-192 `truncateLine` -/
def truncateLine (L : Cutter) (line : Str) (w : Nat) : Str :=
  if w = 0 ∨ L.width line ≤ w then line else L.cut line w

/-- the symbols of `statusIcon` (parallel.go 194-209) -/
def Icon.text : Icon → Str
  | .cancelled => ['⊘']
  | .failed => ['✗']
  | .ok => ['✓']
  | .waiting => ['∙']
  | .running => ['◦']

/-- parallel_grouped.go 97-128 `renderCompactLine` -/
def compactLine (L : Cutter) (w : Nat) (it : Item) (cancelled : Bool) (indent : Str) : Str :=
  let pre := (statusIcon it cancelled).text ++ ' ' :: it.label
  if it.done = true ∧ it.outcome = .ok then truncateLine L (indent ++ pre) w
  else match it.lines.reverse.find? (fun l => trimSpace l ≠ []) with
    | none => truncateLine L (indent ++ pre) w
    | some snippet =>
      let available := w - L.width indent - L.width pre - 2
      if 0 < available then
        truncateLine L (indent ++ pre ++ [' ', ' '] ++ (if available < L.width snippet then L.cutDots snippet available else snippet)) w
      else truncateLine L (indent ++ pre) w

/-- a line of output, cut if there is room for some of it (parallel_grouped.go 79-84) -/
def outputLine (L : Cutter) (w : Nat) (indent line : Str) : Str :=
  let pre := indent ++ ['│', ' ', ' ']
  let room := w - L.width pre
  truncateLine L (pre ++ (if 0 < room ∧ room < L.width line then L.cut line room else line)) w

/-- parallel_grouped.go 44-95 `renderItem` with a bound on the depth of the recursion -/
def fitItem (L : Cutter) (w : Nat) (b : Base) : Nat → Str → Str → Nat → Option (List Str)
  | 0, _, _, _ => none
  | fuel + 1, key, indent, depth =>
    match b.items.get? key with
    | none => some []
    | some it =>
      if depth > 0 then
        (it.children.mapM (fun ck => fitItem L w b fuel ck (indent ++ [' ', ' ']) (depth + 1))).map
          (fun rs => compactLine L w it b.cancelled indent :: rs.flatten)
      else
        let title := truncateLine L (indent ++ ['┌', '─', ' '] ++ it.label ++ ' ' :: (statusIcon it b.cancelled).text) w
        let bottom := truncateLine L (indent ++ ['└']) w
        if it.children.length > 0 then
          (it.children.mapM (fun ck => fitItem L w b fuel ck (indent ++ ['│', ' ', ' ']) 1)).map (fun rs => title :: rs.flatten ++ [bottom])
        else
          let pads := if it.done = false ∧ it.lines.length > 0 ∧ it.lines.length < groupedMaxLines then
            List.replicate (groupedMaxLines - it.lines.length) (truncateLine L (indent ++ ['│']) w) else []
          some (title :: it.lines.map (outputLine L w indent) ++ pads ++ [bottom])

/-- parallel_grouped.go 33-42 `View` before the rows are joined -/
def fitGrouped (L : Cutter) (w : Nat) (b : Base) : Option (List Str) :=
  if b.done = true then some [[' ']]
  else (b.roots.mapM (fun key => fitItem L w b (longest b.items + 2) key [] 0)).map List.flatten

/-- the room that a title of a tab takes: its symbol, a blank, the label, a blank and a line on both sides (parallel_tabs.go 121-125,
151-152) -/
def titleWidth (L : Cutter) (label : Str) (icon : Icon) : Nat := L.width (icon.text ++ ' ' :: label) + 4

/-- the columns of the titles of the tabs, which stand side by side (parallel_tabs.go 155) and of which only the last row is cut
(parallel_tabs.go 167-180): for each title the first column, the number of columns, and whether it is the one of the active tab -/
def titleColumns (L : Cutter) : Nat → List (Bool × Str × Icon) → List (Nat × Nat × Bool)
  | _, [] => []
  | x, q :: r => (x, titleWidth L q.2.1 q.2.2, q.1) :: titleColumns L (x + titleWidth L q.2.1 q.2.2) r

end Bab.View
