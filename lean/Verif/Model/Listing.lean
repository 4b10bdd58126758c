import Verif.Model.Babfile
import Verif.Model.Suggest
/-
Model of cmd/complete.go and cmd/list.go: shell completion and `--list`.
-/

namespace Bab

/-- order of Go strings; bytewise order of UTF-8 is the order of code points -/
def strLe : Str → Str → Bool
  | [], _ => true
  | _ :: _, [] => false
  | a :: x, b :: y => if a = b then strLe x y else decide (a.toNat < b.toNat)

/-- `strings.HasPrefix` (used in cmd/complete.go 24, 36) -/
def hasPrefix : Str → Str → Bool
  | _, [] => true
  | [], _ :: _ => false
  | a :: x, b :: y => a = b && hasPrefix x y

/-- complete.go 23-33: the entry of a task -/
def taskEntry (toComplete : Str) (q : Str × Task) : Option Str :=
  if hasPrefix q.1 toComplete then
    some (if q.2.desc ≠ [] then q.1 ++ '\t' :: q.2.desc else q.1)
  else none

/-- complete.go 35-45: the entry of an alias -/
def aliasEntry (tasks : TaskMap) (toComplete : Str) (q : Str × Str) : Option Str :=
  if hasPrefix q.1 toComplete then
    match tasks.get? q.2 with
    | some t => some (if t.desc ≠ [] then q.1 ++ '\t' :: (t.desc ++ " (alias)".toList) else q.1 ++ '\t' :: ("alias for ".toList ++ q.2))
    | none => some (q.1 ++ '\t' :: ("alias for ".toList ++ q.2))
  else none

/-- complete.go 11-49 `completeTaskNames` for the first argument, after loading has succeeded -/
def completeTaskNames (tasks : TaskMap) (aliases : GoMap Str) (toComplete : Str) : List Str :=
  sortBy strLe (tasks.filterMap (taskEntry toComplete) ++ aliases.filterMap (aliasEntry tasks toComplete))

/-! ### `--list` -/

/-- babfile/task.go 28-37 `GetAllAliases` as shown by the list -/
def shownAliases (t : Task) : List Str := (if t.alias ≠ [] then [t.alias] else []) ++ t.aliases

/-- list.go 15-19 `node` -/
inductive LNode where
  | mk (desc : Str) (aliases : List Str) (children : List (Str × LNode))

/-- a new node (cmd/list.go 32, 38) -/
def LNode.empty : LNode := .mk [] [] []

/-- list.go 35-45: walk down from a node, creating nodes, and set description and aliases at the end -/
def LNode.insert (desc : Str) (aliases : List Str) : List Str → LNode → LNode
  | [], .mk _ _ ch => .mk desc aliases ch
  | p :: ps, .mk d a ch => .mk d a (GoMap.set ch p (LNode.insert desc aliases ps ((GoMap.get? ch p).getD .empty)))

/-- `strings.Split(name, ":")`; `cur` is the part being read, reversed (used in cmd/list.go 34) -/
def splitColon (cur : Str) : Str → List Str
  | [] => [cur.reverse]
  | c :: r => if c = ':' then cur.reverse :: splitColon [] r else splitColon (c :: cur) r

/-- list.go 32-47: the tree of all tasks -/
def listTree (tasks : TaskMap) : LNode :=
  tasks.foldl (fun root q => LNode.insert q.2.desc (shownAliases q.2) (splitColon [] q.1) root) .empty

/-- one line of the list: the place in the tree, description and aliases (cmd/list.go 53-67) -/
structure LRow where
  path : List Str
  desc : Str
  aliases : List Str
  deriving DecidableEq

mutual
/-- list.go 54-69 `buildTree`: the lines below a node called `name`, children sorted by name (`sortedKeys`, 76-85) -/
def LNode.rows (name : Str) : LNode → List LRow
  | .mk d a ch => ⟨[name], d, a⟩ ::
      (sortBy (fun x y => strLe x.1 y.1) (LNode.childRows ch)).flatMap (fun q => q.2.map (fun r => { r with path := name :: r.path }))
/-- the lines of all children, by name (cmd/list.go 63-65) -/
def LNode.childRows : List (Str × LNode) → List (Str × List LRow)
  | [] => []
  | (k, n) :: ch => (k, LNode.rows k n) :: LNode.childRows ch
end

/-- list.go 71-75: all lines, in order -/
def LNode.allRows : LNode → List LRow
  | .mk _ _ ch => (sortBy (fun x y => strLe x.1 y.1) (LNode.childRows ch)).flatMap (·.2)

/-- cmd/list.go 21-76 `runList` -/
def listTasks (tasks : TaskMap) : List LRow := (listTree tasks).allRows

end Bab
