import Verif.Model.Listing
/-
Model of internal/tui/picker: the interactive choice of a task. The text field (bubbles/textinput) is represented by its
value; the fuzzy matcher (sahilm/fuzzy) is a parameter. Styles are left out.
-/

namespace Bab.Picker
open Bab

/-- a result of `fuzzy.Find`: the index of the text, the matched positions and the score
(used in picker/match.go 40, 103) -/
structure Hit where
  index : Nat
  positions : List Nat
  score : Int

/-- match.go 17-23 `Match` -/
structure Match where
  task : Task
  nameIndexes : List Nat := []
  aliasIndexes : List Nat := []
  matchedAlias : Str := []
  score : Int := 0

/-- match.go 40-43: the last hit for an index, as the maps keep it -/
def lastHit (hits : List Hit) (i : Nat) : Option Hit := (hits.filter (fun h => h.index = i)).getLast?

/-- match.go 91-110 `searchAliases`; `find` is `fuzzy.Find` -/
def searchAliases (find : Str → List Str → List Hit) (query : Str) (t : Task) : Str × List Nat × Bool :=
  let aliases := shownAliases t
  if aliases = [] then ([], [], false)
  else if query ∈ aliases then (query, [], true)
  else match find query aliases with
    | best :: _ => (aliases.getD best.index [], best.positions, false)
    | [] => ([], [], false)

/-- match.go 48-66: the result for a task one of whose aliases matches -/
def aliasMatch (find : Str → List Str → List Hit) (query : Str) (names : List Hit) (i : Nat) (t : Task) : Option Match :=
  let r := searchAliases find query t
  if r.1 ≠ [] then
    some { task := t, matchedAlias := r.1, aliasIndexes := r.2.1, nameIndexes := ((lastHit names i).map (·.positions)).getD [],
           score := if r.2.2 then 1000 else if r.2.1.length > 0 then 500 + r.2.1.length else 500 }
  else none

/-- match.go 68-79: the result for a task whose name matches -/
def nameMatch (find : Str → List Str → List Hit) (query : Str) (names : List Hit) (i : Nat) (t : Task) : Option Match :=
  if (aliasMatch find query names i t).isSome then none
  else (lastHit names i).map (fun h => { task := t, nameIndexes := h.positions, score := h.score })

/-- match.go 81-86: the order of the results -/
def matchLe (a b : Match) : Bool :=
  if a.score ≠ b.score then decide (a.score > b.score) else strLe a.task.name b.task.name

/-- match.go 25-89 `search`; `sort.Slice` does not keep the order of equal elements, but different tasks are never equal -/
def search (find : Str → List Str → List Hit) (query : Str) (tasks : List Task) : List Match :=
  if query = [] then tasks.map (fun t => { task := t })
  else
    let names := find query (tasks.map (·.name))
    sortBy matchLe
      (tasks.zipIdx.filterMap (fun q => aliasMatch find query names q.2 q.1) ++
       tasks.zipIdx.filterMap (fun q => nameMatch find query names q.2 q.1))

/-- model.go 12-25 `Model` -/
structure Model where
  input : Str
  tasks : List Task
  hits : List Match
  cursor : Int
  offset : Int
  selected : Option Task
  quitting : Bool
  height : Int

/-- model.go 76-78 `visibleLines` -/
def Model.visibleLines (m : Model) : Int := max 1 (m.height - 4)

/-- model.go 51-55 `updateMatches` -/
def Model.updateMatches (find : Str → List Str → List Hit) (m : Model) : Model :=
  { m with hits := search find m.input m.tasks, cursor := 0, offset := 0 }

/-- model.go 62-74 `adjustScroll` -/
def Model.adjustScroll (m : Model) : Model :=
  let visible := m.visibleLines
  let maxOffset := max 0 ((m.hits.length : Int) - visible)
  let offset := if m.cursor < m.offset then m.cursor
    else if m.cursor ≥ m.offset + visible then m.cursor - visible + 1 else m.offset
  { m with offset := min offset maxOffset }

/-- model.go 57-60 `moveCursor` -/
def Model.moveCursor (m : Model) (delta : Int) : Model :=
  { m with cursor := max 0 (min (m.cursor + delta) ((m.hits.length : Int) - 1)) }.adjustScroll

/-- model.go 27-49 `New` -/
def new (find : Str → List Str → List Hit) (tasks : TaskMap) : Model :=
  Model.updateMatches find
    { input := [], tasks := sortBy (fun a b => strLe a.name b.name) (tasks.map (·.2)), hits := [], cursor := 0, offset := 0,
      selected := none, quitting := false, height := 20 }

/-- what the program sends to the model (picker/update.go 9-47) -/
inductive Msg
  /-- ctrl+c or esc -/
  | quit
  | enter
  /-- up or ctrl+p -/
  | up
  /-- down or ctrl+n -/
  | down
  /-- ctrl+u -/
  | clear
  /-- the window has this height -/
  | size (height : Int)
  /-- anything else goes to the text field, whose value then is `value` -/
  | other (value : Str)

/-- update.go 9-47 `Update` -/
def Model.update (find : Str → List Str → List Hit) (m : Model) : Msg → Model
  | .quit => { m with quitting := true }
  | .enter =>
    { m with
      selected := if m.cursor < m.hits.length then (m.hits[m.cursor.toNat]?).map (·.task) else m.selected
      quitting := true }
  | .up => m.moveCursor (-1)
  | .down => m.moveCursor 1
  | .clear => { m with input := [] }.updateMatches find
  | .size h => { m with height := h }.adjustScroll
  | .other v => if v ≠ m.input then { m with input := v }.updateMatches find else { m with input := v }

/-- view.go 28-31 and 49-58: the lines shown, each with its task and whether it is marked -/
def Model.lines (m : Model) : List (Task × Bool) :=
  let stop := min (m.offset + m.visibleLines) m.hits.length
  (List.range (stop - m.offset).toNat).filterMap (fun (k : Nat) =>
    let i := m.offset + k
    (m.hits[i.toNat]?).map (fun h => (h.task, decide (i = m.cursor))))

end Bab.Picker
