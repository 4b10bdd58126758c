import Verif.Model.Picker
/-
Model of the drawing of the picker: internal/tui/picker/view.go `View`, `renderSeparator` and `renderLine`, match.go `highlight` and
`highlightAlias`. A drawing is a list of pieces of text with their styles; what lipgloss makes of a style is left out.
-/

namespace Bab.Picker
open Bab

/-- styles.go: the styles that occur on a line (picker/styles.go 8-21) -/
inductive Style
  | plain
  | indicator
  | name
  | nameSelected
  | found
  | aliases
  | aliasFound
  | desc
  | rule
  | count
  | noResults
deriving DecidableEq

/-- match.go 124-150: the loop of `highlight`; `off` is the position in bytes -/
def hlLoop (set : List Nat) (base hl : Style) : Nat → Bool → Bool → Str → Str → List (Style × Str)
  | _, _, prevHL, run, [] => if run.length > 0 then [(if prevHL then hl else base, run)] else []
  | off, first, prevHL, run, r :: rest =>
    let isHL := decide (off ∈ set)
    let flush := !first && isHL != prevHL
    (if flush then [(if prevHL then hl else base, run)] else []) ++
      hlLoop set base hl (off + r.utf8Size) false isHL ((if flush then [] else run) ++ [r]) rest

/-- match.go 112-148 `highlight` -/
def highlight (text : Str) (indexes : List Nat) (base hl : Style) : List (Style × Str) :=
  if indexes.length = 0 then [(base, text)] else hlLoop indexes base hl 0 true false [] text

/-- `strings.Index` (used in picker/match.go 154) -/
def indexOf (sub : Str) : Str → Option Nat
  | [] => if sub = [] then some 0 else none
  | c :: t => if sub.isPrefixOf (c :: t) then some 0 else (indexOf sub t).map (· + 1)

/-- match.go 153-162: where the alias is marked -/
def aliasStart (text matched : Str) : List Str → Option Nat
  | [] => none
  | a :: rest =>
    if a = matched then
      match indexOf a text with
      | some i => some i
      | none => aliasStart text matched rest
    else aliasStart text matched rest

/-- match.go 150-177 `highlightAlias` -/
def highlightAlias (text matched : Str) (all : List Str) : List (Style × Str) :=
  match aliasStart text matched all with
  | none => [(.aliases, text)]
  | some i =>
    let stop := i + matched.length
    (if i > 0 then [(.aliases, text.take i)] else []) ++ [(.aliasFound, (text.take stop).drop i)] ++
      (if stop < text.length then [(.aliases, text.drop stop)] else [])

/-- view.go 68: the list of aliases as text -/
def aliasText (all : List Str) : Str := " (".toList ++ ", ".toList.intercalate all ++ ")".toList

/-- view.go 49-80 `renderLine` -/
def renderEntry (m : Match) (selected : Bool) : List (Style × Str) :=
  let all := shownAliases m.task
  (if selected then [(.indicator, "│ ".toList)] else [(.plain, "  ".toList)]) ++
  highlight m.task.name m.nameIndexes (if selected then .nameSelected else .name) .found ++
  (if all.length > 0 then
    (if m.matchedAlias ≠ [] then highlightAlias (aliasText all) m.matchedAlias all else [(.aliases, aliasText all)])
   else []) ++
  (if m.task.desc ≠ [] then [(.plain, "  ".toList), (.desc, m.task.desc)] else [])

/-- view.go 38-47 `renderSeparator`; the brand and the count are ASCII, so that their length in bytes is that in characters -/
def separator (width : Int) (found total : Nat) : List (Style × Str) :=
  let brand := " bab.sh ".toList
  let count := " ".toList ++ found.repr.toList ++ "/".toList ++ total.repr.toList ++ " ".toList
  let lineWidth := (max 0 (width - brand.length - count.length - 4)).toNat
  [(.rule, List.replicate lineWidth '─'), (.count, count), (.rule, "──".toList), (.count, brand), (.rule, "──".toList)]

/-- view.go 21-31: the rows below the separator -/
def Model.body (m : Model) : List (List (Style × Str)) :=
  if m.hits.length = 0 then [[(.noResults, "  No matching tasks :(".toList)]]
  else
    let stop := min (m.offset + m.visibleLines) m.hits.length
    (List.range (stop - m.offset).toNat).filterMap (fun (k : Nat) =>
      let i := m.offset + k
      (m.hits[i.toNat]?).map (fun h => renderEntry h (decide (i = m.cursor))))

/-- view.go 10-36 `View`: the rows of the screen; `field` is what the text field shows -/
def Model.view (field : List (Style × Str)) (width : Int) (m : Model) : List (List (Style × Str)) :=
  if m.quitting then [[]]
  else [[], field, separator width m.hits.length m.tasks.length] ++ m.body

end Bab.Picker
