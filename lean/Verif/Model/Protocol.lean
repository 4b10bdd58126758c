import Verif.Model.Draw
/-
Model of the messages which internal/runner/parallel.go 168-295 `executeParallelTUI` sends to the view. What the items do in
between (`executeRunItem`) is arbitrary: it can send lines of output and it can enter further parallel blocks of this kind, one
after the other. The limit on the number of items is left out: any waiting item may start or be dropped at any time.
-/

namespace Bab.View
open Bab

/-- The goroutine of an item (parallel.go 230-270) with what is below it. `out` is the output of the item so far, without what
came before its latest nested block. -/
inductive Node
  /-- before the semaphore (238-248) -/
  | waiting
  /-- inside `executeRunItem`, not in a nested block -/
  | idle (out : List Str)
  /-- in a nested block, which has registered the first `n` items (173-187) -/
  | adding (out : List Str) (labels : List Str) (n : Nat)
  /-- in a nested block whose goroutines have been started (217-273); `errs` is `itemErrs` -/
  | block (out : List Str) (labels : List Str) (kids : List Node) (errs : List Outcome)
  /-- the nested block has been cleared (275-277) and its summary is due (284-292) -/
  | summing (out : List Str) (labels : List Str) (errs : List Outcome)
  /-- `ItemDoneMsg` has been sent -/
  | ended (out : List Str) (o : Outcome)

/-- parallel.go 242, 261: `itemErrs[idx] = err`, just before the message that the item has ended -/
def record (errs : List Outcome) (i : Nat) : Node → List Outcome
  | .ended _ o => errs.set i o
  | _ => errs

/-- One step of the goroutine of the item at a path, and the message it sends. `text` makes a line of the summary
(runner/parallel.go 230-270). -/
inductive Move (text : Option (List (Str × Icon)) → Str) : List Nat → Node → Option Msg → Node → Prop
  /-- 241-245 -/
  | abort {p} : Move text p .waiting (some (.done (pathToKey p) .cancelled)) (.ended [] .cancelled)
  /-- 250 -/
  | start {p} : Move text p .waiting (some (.start (pathToKey p))) (.idle [])
  /-- a line of output (writer.go) -/
  | line {p out} (t) : Move text p (.idle out) (some (.output (pathToKey p) t)) (.idle (out ++ [t]))
  /-- 260-263 -/
  | finish {p out} (o) : Move text p (.idle out) (some (.done (pathToKey p) o)) (.ended out o)
  /-- 173-176: a nested block -/
  | enter {p out} (labels) : Move text p (.idle out) none (.adding out labels 0)
  /-- 177-187 -/
  | register {p out labels n} (h : n < labels.length) :
      Move text p (.adding out labels n) (some (.register (pathToKey (p ++ [n])) (pathToKey p) labels[n])) (.adding [] labels (n + 1))
  /-- 217-230 -/
  | fork {p out labels} : Move text p (.adding out labels labels.length) none
      (.block out labels (labels.map fun _ => .waiting) (labels.map fun _ => .ok))
  /-- a goroutine of the nested block moves -/
  | inside {p out labels kids errs i k k' m} (h : kids[i]? = some k) (hm : Move text (p ++ [i]) k m k') :
      Move text p (.block out labels kids errs) m (.block out labels (kids.set i k') (record errs i k'))
  /-- 273-277: all goroutines have ended -/
  | clear {p out labels kids errs} (h : ∀ k ∈ kids, ∃ r o, k = .ended r o) :
      Move text p (.block out labels kids errs) (some (.clearChildren (pathToKey p))) (.summing out labels errs)
  /-- 287-290 -/
  | summary {p out labels errs} :
      Move text p (.summing out labels errs) (some (.output (pathToKey p) (text (renderParallelDone labels errs))))
        (.idle (out ++ [text (renderParallelDone labels errs)]))
  /-- 284: the block is silent -/
  | silent {p out labels errs} : Move text p (.summing out labels errs) none (.idle out)

/-- The block that owns the view (parallel.go 188-215), and the view. -/
structure Sys where
  labels : List Str
  kids : List Node
  errs : List Outcome
  view : Base
  /-- `AllDoneMsg` has been sent (279-282) -/
  over : Bool := false

/-- `program.Send` (runner/parallel.go 181, 244, 250, 263, 276, 280, 290) -/
def deliver (b : Base) : Option Msg → Option Base
  | none => some b
  | some m => handle b m

/-- parallel.go 189-215, 217-230; `maxLines` depends on the mode -/
def Sys.init (labels : List Str) (maxLines : Nat) : Sys :=
  { labels := labels, kids := labels.map fun _ => .waiting, errs := labels.map fun _ => .ok, view := newBase labels maxLines }

/-- A step of the system. A message is handled by the view before anything else happens (runner/parallel.go 168-295). -/
inductive Sys.Step (text : Option (List (Str × Icon)) → Str) : Sys → Sys → Prop
  /-- a goroutine moves -/
  | item {s : Sys} {i k k' m view'} (hk : s.kids[i]? = some k) (hm : Move text [i] k m k') (hv : deliver s.view m = some view') :
      Step text s { s with kids := s.kids.set i k', errs := record s.errs i k', view := view' }
  /-- ctrl+c, or another size of the window -/
  | user {s : Sys} {m view'} (hm : m = .ctrlC ∨ m = .size) (hv : handle s.view m = some view') : Step text s { s with view := view' }
  /-- 273, 279-282 -/
  | close {s : Sys} {view'} (h : ∀ k ∈ s.kids, ∃ r o, k = .ended r o) (hv : handle s.view .allDone = some view') :
      Step text s { s with view := view', over := true }

/-- the states that can be reached (runner/parallel.go 168-295) -/
inductive Sys.Reach (text : Option (List (Str × Icon)) → Str) (labels : List Str) (maxLines : Nat) : Sys → Prop
  | init : Reach text labels maxLines (Sys.init labels maxLines)
  | step {s s'} (h : Reach text labels maxLines s) (hs : Sys.Step text s s') : Reach text labels maxLines s'

end Bab.View
