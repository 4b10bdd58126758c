import Verif.Proof.Vars
import Verif.Proof.Sample
/-
C27: prompt answers and the variables of other tasks.
-/

namespace Bab
open Spec Own

section
variable {c : Cfg} {tasks : TaskMap} {gvars : GoMap Str} {main : Str} {s : State}

/-- C27. Whenever a task with a `vars` block uses its variables (for a condition, a command, a message,
a prompt, a parallel block), they are what its `vars` block resolves to, starting from global variables
`g`, overridden by the answers to its own earlier prompts. `g` are the global variables of the Babfile,
except for names that tasks without `vars` block prompt for. -/
theorem C27_own_variables (h : Reach (start c tasks gvars main) s) {a b : List Ev} {e : Ev} {n : Str} {T : Task}
    {m : GoMap Str} (ht : s.sh.trace = a ++ e :: b) (he : uses e = some (n, m)) (hT : tasks.get? n = some T)
    (hv : T.vars ≠ none) :
    ∃ g m0, (∀ k, (∀ n' T' p, tasks.get? n' = some T' → T'.vars = none → .prompt p ∈ T'.run → p.prompt ≠ k) →
        g.get? k = gvars.get? k) ∧
      resolveVars T.vars g c.env = .ok m0 ∧ ∀ k, m.get? k = (lastAnswer n k a).or (m0.get? k) := by
  obtain ⟨g, m0, call, h1, h2, h3⟩ := uses_own h ht he hT hv
  refine ⟨g, m0, ?_, h2, h3⟩
  obtain ⟨x, y, hxy⟩ := List.append_of_mem h1
  have hev := Safe.event_ok h (a := x) (e := .taskVars n g m0 call) (b := y ++ e :: b) (by rw [ht, hxy]; simp)
  intro k hk
  refine hev.1.1 k ?_
  rintro ⟨n', T', i, p, k1, k2, k3, k4⟩
  exact hk n' T' p k1 k2 (List.mem_of_getElem? k3) k4

/-- C27. If every task that prompts has a `vars` block, the variables every task uses are determined by
the Babfile and by its own prompts: answers to prompts of other tasks make no difference. -/
theorem C27_isolated (h : Reach (start c tasks gvars main) s)
    (hp : ∀ n T p, tasks.get? n = some T → .prompt p ∈ T.run → T.vars ≠ none)
    {a b : List Ev} {e : Ev} {n : Str} {T : Task}
    {m : GoMap Str} (ht : s.sh.trace = a ++ e :: b) (he : uses e = some (n, m)) (hT : tasks.get? n = some T)
    (hv : T.vars ≠ none) :
    ∃ m0, resolveVars T.vars gvars c.env = .ok m0 ∧ ∀ k, m.get? k = (lastAnswer n k a).or (m0.get? k) := by
  obtain ⟨g, m0, call, h1, h2, h3⟩ := uses_own h ht he hT hv
  obtain ⟨x, y, hxy⟩ := List.append_of_mem h1
  have hev := Safe.event_ok h (a := x) (e := .taskVars n g m0 call) (b := y ++ e :: b) (by rw [ht, hxy]; simp)
  have hg : g = gvars := by
    refine hev.1.2 ?_
    rintro k ⟨n', T', i, p, k1, k2, k3, k4⟩
    exact hp n' T' p k1 (List.mem_of_getElem? k3) k2
  exact ⟨m0, hg ▸ h2, h3⟩

/-- C27. Items of tasks without `vars` block see the global variables of the Babfile, except for names
that tasks without `vars` block prompt for. -/
theorem C27_global_variables (h : Reach (start c tasks gvars main) s) {loc : Loc} {T : Task} {m : GoMap Str}
    (hm : .sees loc m ∈ s.sh.trace) (hT : tasks.get? loc.task = some T) (hv : T.vars = none) :
    ∀ k, (∀ n' T' p, tasks.get? n' = some T' → T'.vars = none → .prompt p ∈ T'.run → p.prompt ≠ k) →
      m.get? k = gvars.get? k := by
  obtain ⟨a, b, ht⟩ := List.append_of_mem hm
  obtain ⟨-, -, h3⟩ := Safe.event_ok h ht
  intro k hk
  refine (h3 T hT hv).1 k ?_
  rintro ⟨n', T', i, p, k1, k2, k3, k4⟩
  exact hk n' T' p k1 k2 (List.mem_of_getElem? k3) k4

/-- C27. Items of a parallel block see the variables the task had when the block began. -/
theorem C27_block_variables (h : Reach (start c tasks gvars main) s) {n : Str} {i j : Nat} {m : GoMap Str}
    {a b : List Ev} (ht : s.sh.trace = a ++ .sees ⟨n, i, some j⟩ m :: b) : .parBegin n i m ∈ a := by
  obtain ⟨-, h2, -⟩ := Safe.event_ok h ht
  exact h2 j rfl

/-- a prompt -/
def Sample.ask (x : String) : RunItem := .prompt { prompt := Sample.s x, type := .input, message := Sample.s "?" }

/-- `ask` prompts for a variable, `use` runs afterwards; `ask` has a `vars` block or not -/
def Sample.asking (vars : Option (GoMap Str)) : TaskMap :=
  [(Sample.s "all", { name := Sample.s "all", deps := [Sample.s "ask", Sample.s "use"] }),
   (Sample.s "ask", { name := Sample.s "ask", vars := vars, run := [Sample.ask "x", Sample.cmd "echo ${{ x }}"] }),
   (Sample.s "use", { name := Sample.s "use", run := [Sample.cmd "rm ${{ x }}"] })]

/-- an invocation with a given answer, which is due after this number of steps -/
def Sample.askRun (steps : Nat) (vars : Option (GoMap Str)) (ans : String) : State :=
  Exec.drive [.auto steps, .rep (.say (Sample.s ans)) 1, .auto 100]
    (start {} (Sample.asking vars) [(Sample.s "x", Sample.s "old")] (Sample.s "all"))

example : uses (.sees ⟨Sample.s "ask", 1, none⟩ [(Sample.s "x", Sample.s "new"), (Sample.s "y", Sample.s "1")]) =
      some (Sample.s "ask", [(Sample.s "x", Sample.s "new"), (Sample.s "y", Sample.s "1")]) ∧
    .sees ⟨Sample.s "ask", 1, none⟩ [(Sample.s "x", Sample.s "new"), (Sample.s "y", Sample.s "1")] ∈
      (Sample.askRun 9 (some [(Sample.s "y", Sample.s "1")]) "new").sh.trace := by decide +kernel

/-- C27 fails for tasks without `vars` block: what the task `use` runs depends on the answer to a prompt
of the task `ask`. -/
theorem C27_answer_leaks :
    ∃ (tasks : TaskMap) (gvars : GoMap Str) (main : Str) (s s' : State) (loc : Loc) (spec spec' : ProcSpec),
      Reach (start {} tasks gvars main) s ∧ Reach (start {} tasks gvars main) s' ∧
      .procStart loc spec ∈ s.sh.trace ∧ .procStart loc spec' ∈ s'.sh.trace ∧ spec.cmd ≠ spec'.cmd ∧
      (∀ (n : Str) (T : Task) (i : Nat) (p : PromptRun), tasks.get? n = some T → T.run[i]? = some (.prompt p) → n ≠ loc.task) := by
  refine ⟨Sample.asking none, [(Sample.s "x", Sample.s "old")], Sample.s "all", Sample.askRun 10 none "a", Sample.askRun 10 none "b",
    ⟨Sample.s "use", 0, none⟩,
    { shell := "sh".toList, arg := "-c".toList, cmd := "rm a".toList, env := none, dir := ".".toList, out := .terminal, stdin := true },
    { shell := "sh".toList, arg := "-c".toList, cmd := "rm b".toList, env := none, dir := ".".toList, out := .terminal, stdin := true },
    Exec.reach _ _, Exec.reach _ _, by decide +kernel, by decide +kernel, by decide, ?_⟩
  rintro n T i p hT hp rfl
  have : T = { name := Sample.s "use", run := [Sample.cmd "rm ${{ x }}"] } := by
    have h : (Sample.asking none).get? (Sample.s "use") = some { name := Sample.s "use", run := [Sample.cmd "rm ${{ x }}"] } := rfl
    rw [h] at hT; cases hT; rfl
  subst this
  have := List.mem_of_getElem? hp
  simp [Sample.cmd] at this

end
end Bab
