import Verif.Model.Protocol
/-
C68: what a view of parallel items ought to show.
-/

namespace Bab.View
open Bab

namespace Spec

/-- the nested items of an item, with their labels -/
def sub : Node → List (Str × Node)
  | .adding _ labels n => (labels.take n).map (fun l => (l, .waiting))
  | .block _ labels kids _ => labels.zip kids
  | _ => []

/-- the item at a place below an item -/
def find : Str × Node → List Nat → Option (Str × Node)
  | x, [] => some x
  | x, i :: q =>
    match (sub x.2)[i]? with
    | some y => find y q
    | none => none

/-- the item at a place -/
def Place (s : Sys) (q : List Nat) (y : Str × Node) : Prop :=
  ∃ i r x, q = i :: r ∧ (s.labels.zip s.kids)[i]? = some x ∧ find x r = some y

/-- The symbol an item ought to have. When the user has asked to stop, everything that has not ended counts as cancelled. -/
def icon (stop : Bool) : Node → Icon
  | .ended _ .ok => .ok
  | .ended _ .failed => .failed
  | .ended _ .cancelled => .cancelled
  | .waiting => if stop then .cancelled else .waiting
  | _ => if stop then .cancelled else .running

mutual
/-- an item and everything below it, from top to bottom, with depth, label and symbol -/
def titles (stop : Bool) (depth : Nat) (label : Str) : Node → List (Nat × Str × Icon)
  | .adding _ labels n => (depth, label, icon stop (.idle [])) :: (labels.take n).map (fun l => (depth + 1, l, icon stop .waiting))
  | .block _ labels kids _ => (depth, label, icon stop (.idle [])) :: titlesAll stop (depth + 1) labels kids
  | nd => [(depth, label, icon stop nd)]
/-- the same for the items of a block -/
def titlesAll (stop : Bool) (depth : Nat) : List Str → List Node → List (Nat × Str × Icon)
  | l :: ls, k :: ks => titles stop depth l k ++ titlesAll stop depth ls ks
  | _, _ => []
end

/-- the label and the symbol on a row, and how far it is indented -/
def head : Row → Option (Nat × Str × Icon)
  | .title l i => some (0, l, i)
  | .compact d l i _ => some (d, l, i)
  | _ => none

/-- the output of an item, without what came before its latest nested block -/
def said : Node → List Str
  | .waiting => []
  | .idle out => out
  | .adding out _ _ => out
  | .block out _ _ _ => out
  | .summing out _ _ => out
  | .ended out _ => out

/-- the last `n` lines, or all of them if `n` is 0 -/
def recent (n : Nat) (out : List Str) : List Str := if n = 0 then out else out.drop (out.length - n)

/-- what is shown of the output of a nested item: the last line that is not blank, unless the item has ended well -/
def snippet (n : Nat) : Node → Option Str
  | .ended _ .ok => none
  | nd => ((recent n (said nd)).filter (fun l => trimSpace l ≠ [])).getLast?

mutual
/-- a nested item and everything below it -/
def below (stop : Bool) (n depth : Nat) (label : Str) : Node → List Row
  | .adding out labels k => .compact depth label (icon stop (.idle [])) (snippet n (.idle out)) ::
      (labels.take k).map (fun l => .compact (depth + 1) l (icon stop .waiting) none)
  | .block out labels kids _ => .compact depth label (icon stop (.idle [])) (snippet n (.idle out)) :: belowAll stop n (depth + 1) labels kids
  | nd => [.compact depth label (icon stop nd) (snippet n nd)]
/-- the same for the items of a block -/
def belowAll (stop : Bool) (n depth : Nat) : List Str → List Node → List Row
  | l :: ls, k :: ks => below stop n depth l k ++ belowAll stop n depth ls ks
  | _, _ => []
end

/-- the height of an item that runs is kept as soon as it has said something -/
def pads (n : Nat) : Node → Nat
  | .ended _ _ => 0
  | nd => if (recent n (said nd)).length = 0 then 0 else groupedMaxLines - (recent n (said nd)).length

/-- an item of the block that owns the view: its nested items, or else the last lines of its output -/
def box (stop : Bool) (n : Nat) (label : Str) (nd : Node) : List Row :=
  .title label (icon stop nd) ::
    (if sub nd ≠ [] then (sub nd).flatMap (fun y => below stop n 1 y.1 y.2)
     else (recent n (said nd)).map .line ++ List.replicate (pads n nd) .pad) ++ [.bottom]

/-- what is said about a nested item in a tab -/
def note (n : Nat) : Node → Note
  | .ended _ .failed => .error
  | .ended _ .cancelled => .error
  | nd =>
    match (recent n (said nd)).getLast? with
    | some l => if trimSpace l = [] then .none else .last l
    | none => .none

/-- what a view that keeps `n` lines has to know about the item at a place -/
structure Fits (n : Nat) (p : List Nat) (x : Str × Node) (it : Item) : Prop where
  label : it.label = x.1
  children : it.children = (List.range (sub x.2).length).map (fun j => pathToKey (p ++ [j]))
  lines : it.lines = recent n (said x.2)
  ended : ∀ r o, x.2 = .ended r o → it.done = true ∧ it.outcome = o
  going : (∀ r o, x.2 ≠ .ended r o) → it.done = false ∧ (it.started = false ↔ x.2 = .waiting)

end Spec
end Bab.View
