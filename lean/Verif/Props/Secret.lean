import Verif.Proof.SecretRun
import Verif.Model.Debug
import Verif.Model.Message
import Verif.Proof.Sample
/-
C107: what the user typed as a password is shown nowhere.
-/

namespace Bab
open Spec Spec.Secret

section
variable {c : Cfg} {tasks : TaskMap} {gvars : GoMap Str} {main : Str} {s : State}

/-- C107, without `--verbose`. Let the Babfile use some variables only in the values of `env` of commands (or to define further variables
of that kind). Then nothing that is shown, no decision, no process apart from the values of its environment, and not the result depends on
what the user answers for these variables: for every execution there is one with any other answers, in which all of this is the same.
In particular nothing of it tells what a password was. -/
theorem C107_hidden (S : Str → Prop) (alt : Str → Str → Str) (hk : Keeps S c tasks) (htty : c.stdinTTY = true)
    (h : Reach (start c tasks gvars main) s) :
    ∃ s', Reach (start c tasks gvars main) s' ∧
      s'.sh.trace.filterMap onScreen = s.sh.trace.filterMap onScreen ∧
      s'.sh.trace.filterMap answer = (s.sh.trace.filterMap answer).map (fun q => (q.1, other S alt q.1 q.2)) ∧
      ∀ r, s.prog = .ret r → s'.prog = .ret r := by
  let d : Secret.Diff := ⟨S, other S alt, by
    intro x r e
    unfold other
    split
    · cases r <;> simp [Except.map]
    · rfl⟩
  have hA : ∀ x r, ¬ d.S x → d.A x r = r := fun x r hx => if_neg hx
  have hr : Secret.Rel d (runWithTasks c tasks main) (runWithTasks c tasks main) :=
    Secret.runTask (d := d) hk hA (fun h => by rw [htty] at h; cases h) _ _ _ _
  obtain ⟨s', h1, h2, h3⟩ := Secret.reach hr (τ := Shared.init gvars) ⟨rfl, .refl _, rfl, rfl, .nil⟩ h
  refine ⟨s', h1, (Secret.filterMap_shown h3.trace).symm, Secret.filterMap_answer h3.trace, ?_⟩
  intro r hr
  rw [hr] at h2
  cases hq : s'.prog with
  | ret r' => rw [hq] at h2; cases h2; rfl
  | act => rw [hq] at h2; cases h2
  | par => rw [hq] at h2; cases h2

/-- C107. Without a terminal nobody is asked for a password: the question fails. -/
theorem C107_not_asked (p : PromptRun) (hp : p.type = .password) : handleNonInteractive p = .error (.prompt 2) := by
  unfold handleNonInteractive
  rw [hp]

/-- C107, the debug messages. With the same hypotheses, also the debug messages are the same, apart from those that report an answer; and
those report every answer as it was given. -/
theorem C107_debug_partial (S : Str → Prop) (alt : Str → Str → Str) (hk : Keeps S c tasks) (htty : c.stdinTTY = true)
    (h : Reach (start c tasks gvars main) s) :
    ∃ s', Reach (start c tasks gvars main) s' ∧
      s'.sh.trace.filterMap onScreen = s.sh.trace.filterMap onScreen ∧
      ((debugLines true s'.sh.trace).filter fun m => match m with | .stored _ _ => false | _ => true) =
        ((debugLines true s.sh.trace).filter fun m => match m with | .stored _ _ => false | _ => true) ∧
      ∀ x a, .stored x a ∈ debugLines true s.sh.trace ↔ (x, .ok a) ∈ s.sh.trace.filterMap answer := by
  obtain ⟨s', h1, h2, h3, -⟩ := C107_hidden S alt hk htty h
  refine ⟨s', h1, h2, ?_, ?_⟩
  · have key : ∀ l : List Ev, ((debugLines true l).filter fun m => match m with | .stored _ _ => false | _ => true) =
        (l.filterMap onScreen).filterMap fun e => match e with
          | .taskSkip n _ => some (.skipTask n)
          | .itemSkip n i .platform => some (.skipPlatform n (i + 1))
          | .itemSkip n i (.cond _) => some (.skipCond n (i + 1))
          | _ => none := by
      intro l
      simp only [debugLines, if_true, List.filter_filterMap, List.filterMap_filterMap]
      congr 1
      funext e
      cases e with
      | itemSkip n i w => cases w <;> rfl
      | answered l x r => cases r <;> rfl
      | _ => rfl
    rw [key, key, h2]
  · intro x a
    simp only [debugLines, if_true, List.mem_filterMap]
    constructor
    · rintro ⟨e, he, hd⟩
      refine ⟨e, he, ?_⟩
      cases e with
      | itemSkip n i w => cases w <;> simp [debugOf] at hd
      | answered l x r => cases r <;> simp_all [debugOf, answer]
      | _ => simp [debugOf] at hd
    · rintro ⟨e, he, hd⟩
      refine ⟨e, he, ?_⟩
      cases e with
      | answered l x r =>
        simp only [answer, Option.some.injEq, Prod.mk.injEq] at hd
        obtain ⟨rfl, rfl⟩ := hd
        rfl
      | _ => simp [answer] at hd

end

/-- a task that asks for a password -/
def Sample.login (v : CommandRun) : TaskMap :=
  [(Sample.s "login",
    { name := Sample.s "login"
      vars := some []
      run := [.prompt { prompt := Sample.s "pw", type := .password, message := Sample.s "Password" }, .command v] })]

/-- a run of it, in which the command fails or not -/
def Sample.loginRun (v : CommandRun) (ans : String) (after : List Exec.Do) : State :=
  Exec.drive ([.auto 7, .rep (.say (Sample.s ans)) 1] ++ after) (Bab.start {} (Sample.login v) [] (Sample.s "login"))

/-- C107 fails: with `--verbose` a password that was typed is written to the terminal as it is. -/
theorem C107_verbose : ∃ s : State,
    Reach (Bab.start {} (Sample.login { cmd := Sample.s "docker login", env := [(Sample.s "P", Sample.s "${{ pw }}")] }) [] (Sample.s "login")) s ∧
    .stored (Sample.s "pw") (Sample.s "hunter2") ∈ debugLines true s.sh.trace :=
  ⟨Sample.loginRun _ "hunter2" [.auto 100], Exec.reach _ _, by decide +kernel⟩

/-- C107. A password that the Babfile puts into a command is shown with the command. -/
theorem C107_echoed : ∃ s : State,
    Reach (Bab.start {} (Sample.login { cmd := Sample.s "docker login -p ${{ pw }}" }) [] (Sample.s "login")) s ∧
    .echoCmd ⟨Sample.s "login", 1, none⟩ (Sample.s "docker login -p hunter2") none ∈ s.sh.trace :=
  ⟨Sample.loginRun _ "hunter2" [.auto 100], Exec.reach _ _, by decide +kernel⟩

/-- C107. `silent` does not help: when the command fails, it is in the error message. -/
theorem C107_in_error : ∃ s : State,
    Reach (Bab.start {} (Sample.login { cmd := Sample.s "docker login -p ${{ pw }}", silent := some true }) [] (Sample.s "login")) s ∧
    s.prog = .ret (some (.wrap (.command (Sample.s "login") (Sample.s "docker login -p hunter2")) (.exit 1))) ∧
    ∀ l t o, .echoCmd l t o ∉ s.sh.trace := by
  refine ⟨Sample.loginRun _ "hunter2" [.auto 5, .rep (.fail 1) 50], Exec.reach _ _, ?_, ?_⟩
  · have : (match (Sample.loginRun { cmd := Sample.s "docker login -p ${{ pw }}", silent := some true } "hunter2"
        [.auto 5, .rep (.fail 1) 50]).prog with
      | .ret r => decide (r = some (.wrap (.command (Sample.s "login") (Sample.s "docker login -p hunter2")) (.exit 1)))
      | _ => false) = true := by decide +kernel
    split at this
    · rename_i r hr
      rw [hr, of_decide_eq_true this]
    · cases this
  have : (Sample.loginRun { cmd := Sample.s "docker login -p ${{ pw }}", silent := some true } "hunter2"
      [.auto 5, .rep (.fail 1) 50]).sh.trace.all (fun e => match e with | .echoCmd _ _ _ => false | _ => true) = true := by decide +kernel
  intro l t o hm
  exact absurd (List.all_eq_true.mp this _ hm) (by simp)

/-! A task that keeps its password: it is used in the environment of the command only. -/

theorem Sample.clear_of {S : Str → Prop} {t : Str} (h : ∀ x ∈ extractVarRefs 0 (replaceEscapes t), ¬ S x) : Clear S t := by
  rintro x ⟨ts, hr, hx⟩ -
  rw [← extract_replaceEscapes hr] at hx
  exact h x hx

theorem Sample.login_keeps : Keeps (fun x => x = Sample.s "pw") {}
    (Sample.login { cmd := Sample.s "docker login", env := [(Sample.s "P", Sample.s "${{ pw }}")] }) where
  dir := Sample.clear_of (by decide)
  env := by rintro p ⟨⟩
  tasks n T h := by
    unfold Sample.login GoMap.get? at h
    split at h
    · cases h
      refine ⟨Sample.clear_of (by decide), Sample.clear_of (by decide), by rintro p ⟨⟩, by rintro k raw ⟨⟩, ?_⟩
      intro i hi
      simp only [List.mem_cons, List.not_mem_nil, or_false] at hi
      rcases hi with rfl | rfl
      · exact ⟨Sample.clear_of (by decide), Sample.clear_of (by decide), Sample.clear_of (by decide), Sample.clear_of (by decide),
          by rintro t ⟨⟩, by rintro t ⟨⟩⟩
      · exact ⟨Sample.clear_of (by decide), Sample.clear_of (by decide +kernel), Sample.clear_of (by decide)⟩
    · cases h

/-- for the run with the password hunter2 there is one with another password that looks the same -/
example : ∃ s' : State,
    Reach (Bab.start {} (Sample.login { cmd := Sample.s "docker login", env := [(Sample.s "P", Sample.s "${{ pw }}")] }) [] (Sample.s "login")) s' ∧
    (Sample.s "pw", .ok (Sample.s "swordfish")) ∈ s'.sh.trace.filterMap answer ∧
    .echoCmd ⟨Sample.s "login", 1, none⟩ (Sample.s "docker login") none ∈ s'.sh.trace.filterMap onScreen := by
  obtain ⟨s', h1, h2, h3, -⟩ := C107_hidden (fun x => x = Sample.s "pw") (fun _ _ => Sample.s "swordfish") Sample.login_keeps rfl
    (Exec.reach _ ([Exec.Do.auto 7, .rep (.say (Sample.s "hunter2")) 1] ++ [Exec.Do.auto 100]))
  refine ⟨s', h1, ?_, ?_⟩
  · rw [h3]
    refine List.mem_map.mpr ⟨(Sample.s "pw", .ok (Sample.s "hunter2")), by decide +kernel, ?_⟩
    simp [other, Except.map]
  · rw [h2]
    decide +kernel

/-- the process gets the password -/
example : ∃ p : ProcSpec, .procStart ⟨Sample.s "login", 1, none⟩ p ∈
    (Sample.loginRun { cmd := Sample.s "docker login", env := [(Sample.s "P", Sample.s "${{ pw }}")] } "hunter2" [.auto 100]).sh.trace ∧
    p.env = some [(Sample.s "P", Sample.s "hunter2")] ∧ p.cmd = Sample.s "docker login" :=
  ⟨⟨"sh".toList, "-c".toList, Sample.s "docker login", some [(Sample.s "P", Sample.s "hunter2")], ".".toList, .terminal, true⟩,
    by decide +kernel, rfl, rfl⟩

end Bab
