import Verif.Props.Message
import Verif.Props.Cli
import Verif.Proof.ClaimRun
/-
C73: a message about a variable names the line that uses it.
-/

namespace Bab
open Spec

namespace Spec

/-- the text is expanded when the task runs; it is written at the line, or in the settings of the task or of the item at the
line. The directory that a command runs in and the environment of the task are expanded for a command, and its line is
named. -/
inductive Spot (c : Cfg) (T : Task) : Nat → Str → Prop
  | cond : Spot c T T.line T.cond
  | var {m : GoMap Str} {k x : Str} (hm : T.vars = some m) (h : m.get? k = some x) : Spot c T T.line x
  | env {k x : Str} (h : (k, x) ∈ T.env ∨ (k, x) ∈ c.globalEnv) : Spot c T T.line x
  | itemCond {i : RunItem} (h : i ∈ T.run) : Spot c T i.line i.cond
  | item {i : RunItem} {x : Str} (h : ItemOf T i) (ht : ItemText i x) : Spot c T i.line x
  | itemEnv {v : CommandRun} {x : Str} (h : ItemOf T (.command v)) (hx : EnvText c T x) : Spot c T v.line x
  | itemDir {v : CommandRun} (h : ItemOf T (.command v)) : Spot c T v.line (givenDir c T v)

/-- the error blames a variable `x` without a value, and names the line of a text that uses it, in a task that `main` needs -/
def BlamesUse (c : Cfg) (tasks : TaskMap) (main x : Str) (e : Err) : Prop :=
  ∃ n T l text ws, Needs tasks main n ∧ tasks.get? n = some T ∧ Spot c T l text ∧ Uses text x ∧ ¬ IsEnv x ∧
    places e = ws ++ [.place l]

/-- the error blames a cycle of variables, and names the line of the task that defines them -/
def BlamesCycle (tasks : TaskMap) (main : Str) (chain : List Str) (e : Err) : Prop :=
  ∃ n T m ws, Needs tasks main n ∧ tasks.get? n = some T ∧ T.vars = some m ∧ Path (DependsOn m.get?) chain ∧
    (∃ l a, chain = l ++ [a] ∧ a ∈ l) ∧ places e = ws ++ [.place T.line]

end Spec

namespace Line
open Claim

variable {c : Cfg} {tasks : TaskMap} {main : Str} {tr : List Ev}

/-- what is to be shown of an error -/
structure Good (c : Cfg) (tasks : TaskMap) (main : Str) (e : Err) : Prop where
  use : ∀ x, cause e = .varNotFound x → BlamesUse c tasks main x e
  cycle : ∀ x chain, cause e = .varCycle x chain → BlamesCycle tasks main chain e

theorem Good.wrap {e : Err} (h : Good c tasks main e) (w : Where) : Good c tasks main (.wrap w e) := by
  refine ⟨fun x hx => ?_, fun x chain hx => ?_⟩
  · obtain ⟨n, T, l, text, ws, h1, h2, h3, h4, h5, h6⟩ := h.use x hx
    exact ⟨n, T, l, text, w :: ws, h1, h2, h3, h4, h5, by rw [places, h6]; rfl⟩
  · obtain ⟨n, T, m, ws, h1, h2, h3, h4, h5, h6⟩ := h.cycle x chain hx
    exact ⟨n, T, m, w :: ws, h1, h2, h3, h4, h5, by rw [places, h6]; rfl⟩

/-- an error that has nothing to do with variables -/
theorem other {e : Err} (h1 : ∀ x, cause e ≠ .varNotFound x) (h2 : ∀ x chain, cause e ≠ .varCycle x chain) : Good c tasks main e :=
  ⟨fun x h => absurd h (h1 x), fun x chain h => absurd h (h2 x chain)⟩

theorem lacks {n : Str} {T : Task} (hn : Needs tasks main n) (hT : tasks.get? n = some T) {l : Nat} {text : Str} {m : GoMap Str} {e : Err}
    (hs : Spot c T l text) (h : Lacks l text m e) : Good c tasks main e := by
  obtain ⟨x, rfl, h1, h2, _⟩ := h
  refine ⟨fun y hy => ?_, fun y chain hy => ?_⟩
  · cases hy
    exact ⟨n, T, l, text, [], hn, hT, hs, h2, h1, rfl⟩
  · cases hy

theorem stepFails {n : Str} {T : Task} (hn : Needs tasks main n) (hT : tasks.get? n = some T) {loc : Loc} {item : RunItem} {e : Err}
    (hi : ItemOf T item) (h : StepFails c tr T loc item e) : Good c tasks main e := by
  cases h with
  | text _ h => exact lacks hn hT (.item hi (.cmd _)) h
  | env _ hx h =>
    rcases hx with hx | hx
    · exact lacks hn hT (.item hi (.env _ hx)) h
    · exact lacks hn hT (.itemEnv hi hx) h
  | dirText _ h => exact ((lacks hn hT (.itemDir hi) h).wrap _).wrap _
  | log _ h => exact lacks hn hT (.item hi (.log _)) h
  | _ => exact other (fun _ h => nomatch h) (fun _ _ h => nomatch h)

mutual
theorem taskFails {n : Str} {e : Err} (hn : Needs tasks main n) : TaskFails c tasks tr n e → Good c tasks main e
  | .unknown _ => other (fun _ h => nomatch h) (fun _ _ h => nomatch h)
  | .circular _ _ => other (fun _ h => nomatch h) (fun _ _ h => nomatch h)
  | .cond h1 h2 => ((lacks hn h1 .cond h2).wrap _).wrap _
  | .dep h1 h2 h3 => (taskFails (Sim.needs_closed hn h1 (Or.inl h2)) h3).wrap _
  | .var (T := T) (x := y) h1 h2 h3 => by
    obtain ⟨⟨k, raw, hk, hu⟩, he, _⟩ := h3
    exact ⟨fun x hx => by cases hx; exact ⟨n, T, T.line, raw, [], hn, h1, .var h2 hk, hu, he, rfl⟩, fun _ _ h => nomatch h⟩
  | .varCycle (T := T) (m := m) h1 h2 h3 h4 =>
    ⟨fun _ h => (nomatch h), fun x chain hx => by cases hx; exact ⟨n, T, m, [], hn, h1, h2, h3, h4, rfl⟩⟩
  | .env h1 _ h3 h4 => lacks hn h1 (.env h3) h4
  | .cancelled _ _ _ => other (fun _ h => nomatch h) (fun _ _ h => nomatch h)
  | .none _ _ _ => other (fun _ h => nomatch h) (fun _ _ h => nomatch h)
  | .itemCond h1 h2 _ h4 => ((lacks hn h1 (.itemCond (List.mem_of_getElem? h2)) h4).wrap _).wrap _
  | .item h1 h2 _ h4 => itemFails hn h1 (List.mem_of_getElem? h2) h4
theorem itemFails {n : Str} {T : Task} {i : Nat} {item : RunItem} {e : Err} (hn : Needs tasks main n) (hT : tasks.get? n = some T)
    (hi : item ∈ T.run) : ItemFails c tasks tr n T i item e → Good c tasks main e
  | .step h => stepFails hn hT (.top hi) h
  | .call h => taskFails (Sim.needs_closed hn hT (Or.inr (callsIn_of_mem hi))) h
  | .promptText _ h2 h3 => lacks hn hT (.item (.top hi) h2) h3
  | .prompt _ he => by
    rcases he with rfl | ⟨_, rfl⟩
    · exact other (fun _ h => nomatch h) (fun _ _ h => nomatch h)
    · exact other (fun _ h => nomatch h) (fun _ _ h => nomatch h)
  | .preDep h1 h2 h3 h4 =>
    (taskFails (Sim.needs_closed (Sim.needs_closed hn hT (Or.inr (callsIn_of_block hi (callsIn_of_mem h1)))) h2 (Or.inl h3)) h4).wrap _
  | .blockUnknown _ _ => other (fun _ h => nomatch h) (fun _ _ h => nomatch h)
  | .view _ => other (fun _ h => nomatch h) (fun _ _ h => nomatch h)
  | .blockStep h1 _ _ h4 => (stepFails hn hT (.sub hi (List.mem_of_getElem? h1)) h4).wrap _
  | .blockCall h1 _ _ h4 =>
    (taskFails (Sim.needs_closed hn hT (Or.inr (callsIn_of_block hi (callsIn_of_mem (List.mem_of_getElem? h1))))) h4).wrap _
end

end Line

section
variable {c : Cfg} {tasks : TaskMap} {gvars : GoMap Str} {main : Str} {s : State}

/-- **C73** If an invocation fails because of a variable without a value, then the last place that the error names is the line
of a text that uses the variable: of the item, if the text belongs to an item, and otherwise of the task. -/
theorem C73_use (h : Reach (start c tasks gvars main) s) {e : Err} (he : s.prog = .ret (some e)) {x : Str} (hx : cause e = .varNotFound x) :
    BlamesUse c tasks main x e :=
  (Line.taskFails (Or.inl rfl) (C70_way h he)).use x hx

/-- **C73** If it fails because of a cycle of variables, then the last place is the line of the task that defines them. -/
theorem C73_cycle (h : Reach (start c tasks gvars main) s) {e : Err} (he : s.prog = .ret (some e)) {x : Str} {chain : List Str}
    (hx : cause e = .varCycle x chain) : BlamesCycle tasks main chain e :=
  (Line.taskFails (Or.inl rfl) (C70_way h he)).cycle x chain hx

/-- the text that is printed for a failure at a line of the file `f` -/
def Spec.at_ (cwd : Option Str) (f : Str) (l : Nat) (msg : Str) : Str :=
  relativePath cwd f ++ ((if l = 0 then [] else ':' :: Nat.toDigits 10 l) ++ ": ".toList) ++ msg

/-- **C73** What is printed ends with the path of the Babfile that was loaded, the number of such a line and the name of the
variable. -/
theorem C73_printed (h : Reach (start c tasks gvars main) s) {e : Err} (he : s.prog = .ret (some e)) {y : Str} (hy : cause e = .varNotFound y)
    (x : Texts) (hx : x.path ≠ []) :
    ∃ n T l text front more, Needs tasks main n ∧ tasks.get? n = some T ∧ Spot c T l text ∧ Uses text y ∧ ¬ IsEnv y ∧
      exitStatus (some (e.toGo x)) = (1, [front ++ at_ x.cwd x.path l ("undefined variable: ".toList ++ y ++ more)]) := by
  obtain ⟨n, T, l, text, ws, h1, h2, h3, h4, h5, h6⟩ := C73_use h he hy
  refine ⟨n, T, l, text, ws.flatMap (Where.text x),
    if x.similar y = [] then [] else " (did you mean ".toList ++ quote x.isPrint (x.similar y) ++ "?)".toList, h1, h2, h3, h4, h5, ?_⟩
  rw [C70_printed x hx e (Or.inl (by rw [h6]; simp)), hy, if_neg (fun h => nomatch h), h6, List.flatMap_append, List.flatMap_cons,
    text_place x hx, List.flatMap_nil, List.append_nil, List.append_assoc]
  rfl

/-- **C73** For a cycle: the line of the task that defines the variables, and the names along the cycle. -/
theorem C73_cycle_printed (h : Reach (start c tasks gvars main) s) {e : Err} (he : s.prog = .ret (some e)) {y : Str} {chain : List Str}
    (hy : cause e = .varCycle y chain) (x : Texts) (hx : x.path ≠ []) :
    ∃ n T m front, Needs tasks main n ∧ tasks.get? n = some T ∧ T.vars = some m ∧ Path (DependsOn m.get?) chain ∧
      (∃ l a, chain = l ++ [a] ∧ a ∈ l) ∧
      exitStatus (some (e.toGo x)) = (1, [front ++ at_ x.cwd x.path T.line ("circular variable reference: ".toList ++ joinArrow chain)]) := by
  obtain ⟨n, T, m, ws, h1, h2, h3, h4, h5, h6⟩ := C73_cycle h he hy
  refine ⟨n, T, m, ws.flatMap (Where.text x), h1, h2, h3, h4, h5, ?_⟩
  have hc : chain ≠ [] := by rintro rfl; cases h4
  rw [C70_printed x hx e (Or.inl (by rw [h6]; simp)), hy, if_neg (fun h => nomatch h), h6, List.flatMap_append, List.flatMap_cons,
    text_place x hx, List.flatMap_nil, List.append_nil, List.append_assoc]
  show (1, [_ ++ (_ ++ ("circular variable reference: ".toList ++ if chain = [] then y else joinArrow chain))]) = _
  rw [if_neg hc]
  rfl

end

/-- the tasks of a Babfile that includes nothing come from this file -/
theorem source_alone {files : Files} {o : Orders} {p : Str} {r : ParseResult} {b : Schema} (hw : FilesWF files) (ho : OrdersOK o)
    (h : load files o p = .ok r) (hf : files.get? p = some (some b)) (hb : b.includes = []) {n : Str} {T : Task} (hT : r.tasks.get? n = some T) :
    T.sourcePath = p := by
  obtain ⟨-, hto, -⟩ := parseFile_ok hw ho _ h
  obtain ⟨nss, bs, n', f, T', h1, -, h2⟩ := hto.sound _ _ hT
  cases h1 with
  | own _ _ => exact h2.source
  | inc hi _ _ =>
    obtain ⟨b', i, h3, h4, -⟩ := hi
    rw [hf] at h3
    cases h3
    rw [hb] at h4
    cases h4

/-- **C73** (partial: for a Babfile that includes nothing) The message names the file that the task is written in, and the line.
For tasks of included files the path is wrong, see `C73_included`. -/
theorem C73_file_partial {files : Files} {o : Orders} {r : ParseResult} {b : Schema} (hw : FilesWF files) (ho : OrdersOK o) {x : Texts}
    (hx : x.path ≠ []) (hl : load files o x.path = .ok r) (hf : files.get? x.path = some (some b)) (hb : b.includes = [])
    {c : Cfg} {gvars : GoMap Str} {main : Str} {s : State} (h : Reach (start c r.tasks gvars main) s) {e : Err} (he : s.prog = .ret (some e))
    {y : Str} (hy : cause e = .varNotFound y) :
    ∃ n T l text front more, Needs r.tasks main n ∧ r.tasks.get? n = some T ∧ Spot c T l text ∧ Uses text y ∧ ¬ IsEnv y ∧
      exitStatus (some (e.toGo x)) = (1, [front ++ at_ x.cwd T.sourcePath l ("undefined variable: ".toList ++ y ++ more)]) := by
  obtain ⟨n, T, l, text, front, more, h1, h2, h3, h4, h5, h6⟩ := C73_printed h he hy x hx
  exact ⟨n, T, l, text, front, more, h1, h2, h3, h4, h5, by rw [source_alone hw ho hl hf hb h2]; exact h6⟩

namespace Line.Sample
open Bab.Sample

/-- `/w/Babfile` includes `/w/lib.yml`. In both files there is a task at line 4 whose command at line 7 uses a variable that is
not defined. -/
def files : Files :=
  [ (s "/w/Babfile", some {
      includes := [(s "lib", s "lib.yml")]
      tasks := [(s "a", { name := s "a", line := 4, run := [.command { cmd := s "echo", line := 6 }, .command { cmd := s "echo ${{ v }}", line := 7 }] }),
        (s "b", { name := s "b", line := 9, deps := [s "lib:t"] })] }),
    (s "/w/lib.yml", some {
      tasks := [(s "t", { name := s "t", line := 4, run := [.command { cmd := s "echo ${{ u }}", line := 7 }] }),
        (s "v", { name := s "v", line := 20, vars := some [(s "p", s "${{ q }}"), (s "q", s "${{ p }}")], run := [.log { log := s "x", line := 23 }] })] }) ]

theorem files_ok : FilesWF files := files_wf (by decide +kernel)

/-- the tasks that loading a file gives -/
def tasksOf (p : String) : TaskMap :=
  match load files asWritten (s p) with
  | .ok r => r.tasks
  | .error _ => []

/-- an invocation in which every command succeeds -/
def call (p n : String) : State := Exec.drive [.auto 400] (start {} (tasksOf p) [] (s n))

theorem call_reach (p n : String) : Reach (start {} (tasksOf p) [] (s n)) (call p n) := Exec.drive_reach .refl _

/-- what is printed -/
def said (x : Texts) (st : State) : Option (Nat × List Str) :=
  (Exec.result st).map fun r => exitStatus (r.map (Err.toGo x))

/-- texts for an invocation with the Babfile `p` -/
def texts (p : String) : Texts := { plainTexts with path := s p }

/-- the line of the item, not of the task -/
example : said (texts "/w/Babfile") (call "/w/Babfile" "a") = some (1, [s "Babfile:7: undefined variable: v"]) := by decide +kernel

/-- `lib.yml` alone: the file is right -/
example : said (texts "/w/lib.yml") (call "/w/lib.yml" "t") = some (1, [s "lib.yml:7: undefined variable: u"]) := by decide +kernel

example : said (texts "/w/lib.yml") (call "/w/lib.yml" "v") = some (1, [s "lib.yml:20: circular variable reference: p → q → p"]) := by decide +kernel

/-- the hypotheses of `C73_file_partial`, and with them those of `C73_printed` and `C73_use` -/
example : ∃ r b e, load files asWritten (texts "/w/lib.yml").path = .ok r ∧ files.get? (texts "/w/lib.yml").path = some (some b) ∧
    b.includes = [] ∧ Reach (start {} r.tasks [] (s "t")) (call "/w/lib.yml" "t") ∧ (call "/w/lib.yml" "t").prog = .ret (some e) ∧
    cause e = .varNotFound (s "u") := by
  have h : Exec.result (call "/w/lib.yml" "t") = some (some (.wrap (.place 7) (.varNotFound (s "u")))) := by decide +kernel
  have hr := call_reach "/w/lib.yml" "t"
  unfold tasksOf at hr
  have hl : ∃ r, load files asWritten (s "/w/lib.yml") = .ok r := by
    cases hl : load files asWritten (s "/w/lib.yml") with
    | ok r => exact ⟨r, rfl⟩
    | error e =>
      have : (match load files asWritten (s "/w/lib.yml") with | .ok _ => true | .error _ => false) = true := by decide +kernel
      rw [hl] at this
      cases this
  obtain ⟨r, hl⟩ := hl
  rw [hl] at hr
  refine ⟨r, _, .wrap (.place 7) (.varNotFound (s "u")), hl, rfl, rfl, hr, ?_, rfl⟩
  unfold Exec.result at h
  split at h
  · rename_i r hr
    rw [hr]; injection h with h; rw [h]
  · cases h

end Line.Sample

open Line.Sample Bab.Sample in
/-- **C73** For a task of an included file the path is wrong: the variable `u` is used at line 7 of `lib.yml`, the message blames
line 7 of `Babfile`, and nothing in `Babfile` uses `u`. -/
theorem C73_included :
    said (texts "/w/Babfile") (call "/w/Babfile" "b") = some (1, [s "dependency \"lib:t\" failed: Babfile:7: undefined variable: u"]) ∧
    ((tasksOf "/w/Babfile").get? (s "lib:t")).map (fun T => (T.sourcePath, T.run.map fun i => i.line)) = some (s "/w/lib.yml", [7]) := by
  decide +kernel

end Bab
