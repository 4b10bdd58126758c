import Verif.Model.Draw
/-
Model of the scrolling of a tab: internal/tui/parallel_tabs.go with the viewport of the library bubbles 2.0.0 (go.mod 6), whose source is
not in the repository; the model follows it as far as it is known from memory. Left out are the width of the viewport and scrolling to
the side, and rows that contain a newline (a label may, `C94_label_newline`). The viewport counts a single empty row as none; this makes
no difference to what is shown, since its height is at least 1.
-/

namespace Bab.View
open Bab

/-- a row of a tab (tui/parallel_tabs.go 198-230) -/
inductive PortRow
  | text (line : Str)
  | nested (label : Str) (icon : Icon) (note : Note)
  /-- "Waiting…" -/
  | waiting
  /-- "Running…" -/
  | running
deriving DecidableEq

/-- the rows of the text that `buildContent` returns (tui/parallel_tabs.go 198-230, 102) -/
def rowsOf : Content → List PortRow
  | .empty => []
  | .waiting => [.waiting]
  | .running => [.running]
  | .lines ls => ls.map .text
  | .nested rs => rs.map fun r => .nested r.1 r.2.1 r.2.2

/-- `viewport.Model` (parallel_tabs.go 17): the height, the first row that is shown, and the rows -/
structure Port where
  height : Nat := 0
  y : Nat := 0
  rows : List PortRow := []

/-- the largest value of `y` (used by the library in parallel_tabs.go 103-106) -/
def Port.maxY (p : Port) : Nat := p.rows.length - p.height

/-- `viewport.AtBottom` (used in parallel_tabs.go 103) -/
def Port.atBottom (p : Port) : Bool := decide (p.maxY ≤ p.y)

/-- `viewport.SetYOffset` (used by the library in parallel_tabs.go 58, 106) -/
def Port.setY (p : Port) (n : Nat) : Port := { p with y := min n p.maxY }

/-- `viewport.GotoBottom` (used in parallel_tabs.go 46, 51, 106) -/
def Port.gotoBottom (p : Port) : Port := p.setY p.maxY

/-- `viewport.SetContent` (used in parallel_tabs.go 85, 104) -/
def Port.setContent (p : Port) (rows : List PortRow) : Port :=
  let p := { p with rows := rows }
  if p.maxY < p.y then p.gotoBottom else p

/-- `viewport.ScrollDown` (used by the library in parallel_tabs.go 58) -/
def Port.scrollDown (p : Port) (n : Nat) : Port := if p.atBottom then p else p.setY (p.y + n)

/-- `viewport.ScrollUp` (used by the library in parallel_tabs.go 58) -/
def Port.scrollUp (p : Port) (n : Nat) : Port := if p.y = 0 then p else p.setY (p.y - n)

/-- the keys of the viewport that move up and down (parallel_tabs.go 57-59) -/
inductive Scroll
  | up | down | pageUp | pageDown | halfUp | halfDown
deriving DecidableEq

/-- `viewport.Update` for these keys (parallel_tabs.go 58) -/
def Port.scroll (p : Port) : Scroll → Port
  | .up => p.scrollUp 1
  | .down => p.scrollDown 1
  | .pageUp => p.scrollUp p.height
  | .pageDown => p.scrollDown p.height
  | .halfUp => p.scrollUp (p.height / 2)
  | .halfDown => p.scrollDown (p.height / 2)

/-- `viewport.View`: the rows that are shown (parallel_tabs.go 164) -/
def Port.visible (p : Port) : List PortRow := (p.rows.drop p.y).take p.height

/-- parallel_tabs.go 14-18 `tabsModel`, with the height of the window (parallel.go 60) -/
structure Screen where
  tabs : Tabs
  height : Nat := 0
  port : Port := {}

/-- parallel_tabs.go 20-25 `NewTabsModel` -/
def Screen.new (labels : List Str) : Screen := { tabs := ⟨newBase labels 0, 0⟩ }

/-- parallel_tabs.go 71-108 `updateViewport`; the number of the tab is in range already (`Tabs.update`) -/
def Screen.refresh (s : Screen) : Screen :=
  if s.tabs.base.roots.length = 0 then s
  else match tabContent s.tabs with
    | .empty => { s with port := s.port.setContent [] }
    | content =>
      let p : Port := { s.port with height := max 1 (s.height - 4) }
      let q := p.setContent (rowsOf content)
      { s with port := if p.atBottom then q.gotoBottom else q }

/-- what the view receives (tui/parallel_tabs.go 31-60) -/
inductive ScreenMsg
  | msg (m : Msg)
  /-- the window has a new height -/
  | resize (height : Nat)
  /-- the tab key -/
  | next
  /-- shift+tab -/
  | prev
  | scroll (k : Scroll)

/-- parallel_tabs.go 31-60 `Update` -/
def Screen.update (s : Screen) : ScreenMsg → Option Screen
  | .msg .allDone => (s.tabs.update (.base .allDone)).map fun t => { s with tabs := t }
  | .msg .ctrlC => (s.tabs.update (.base .ctrlC)).map fun t => { s with tabs := t }
  | .msg m => (s.tabs.update (.base m)).map fun t => Screen.refresh { s with tabs := t }
  | .resize h => (s.tabs.update (.base .size)).map fun t => Screen.refresh { s with tabs := t, height := h }
  | .next =>
    (s.tabs.update .next).map fun t =>
      if t.base.roots.length = 0 then { s with tabs := t }
      else let s' := Screen.refresh { s with tabs := t }
        { s' with port := s'.port.gotoBottom }
  | .prev =>
    (s.tabs.update .prev).map fun t =>
      if t.base.roots.length = 0 then { s with tabs := t }
      else let s' := Screen.refresh { s with tabs := t }
        { s' with port := s'.port.gotoBottom }
  | .scroll k => some { s with port := s.port.scroll k }

/-- a history of messages; the first one tells the height of the window (parallel_tabs.go 27-29) -/
def screenHistory (labels : List Str) (height : Nat) (msgs : List ScreenMsg) : Option Screen :=
  (ScreenMsg.resize height :: msgs).foldlM Screen.update (Screen.new labels)

end Bab.View
