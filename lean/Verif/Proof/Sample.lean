import Verif.Proof.Exec
/-
Concrete task maps and executions, used to show that the hypotheses of the theorems can be met.
-/

namespace Bab
namespace Sample
open Exec

def s (x : String) : Str := x.toList

/-- a command item -/
def cmd (x : String) : RunItem := .command { cmd := s x }
/-- an inline task item -/
def call (x : String) : RunItem := .task { task := s x }
/-- a parallel block with a limit -/
def par (items : List RunItem) (limit : Nat := 0) : RunItem :=
  .parallel items [] .interleaved limit none none none [] [] 0

/-- A task `all` with a dependency, a command, a parallel block and a task that is also reachable
in other ways. -/
def build : TaskMap :=
  [ (s "all", { name := s "all", deps := [s "lib"],
                run := [cmd "gcc", par [call "x", cmd "y", call "lib"] 2, call "lib", .log { log := s "ok" }] }),
    (s "lib", { name := s "lib", vars := some [], run := [cmd "ar"] }),
    (s "x", { name := s "x", deps := [s "lib"], run := [cmd "cc x"] }) ]

/-- an invocation of `all` in which everything succeeds -/
def good : State := drive [.auto 400] (start {} build [] (s "all"))

theorem good_reach : Reach (start {} build [] (s "all")) good := reach _ _

/-- an invocation of `all` in which the command `y` inside the block fails -/
def bad : State := drive [.auto 44, .rep (.sub 1 (.fail 3)) 60, .auto 400] (start {} build [] (s "all"))

theorem bad_reach : Reach (start {} build [] (s "all")) bad := reach _ _

end Sample
end Bab
