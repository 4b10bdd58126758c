import Verif.Proof.Shell
import Verif.Proof.Command
import Verif.Proof.Sample
import Verif.Props.Interpolate
import Verif.Props.Prompt
import Verif.Props.Vars
/-
C105: what is put in for a reference stays data.
-/

namespace Bab
open Spec Spec.Shell

section
variable {c : Cfg} {tasks : TaskMap} {gvars : GoMap Str} {main : Str} {s : State}

/-- the text of a command is what expansion makes of the command of the Babfile -/
theorem started_text (h : Reach (Bab.start c tasks gvars main) s) {loc : Loc} {spec : ProcSpec} (he : .procStart loc spec ∈ s.sh.trace) :
    ∃ v m, itemAt tasks loc = some (.command v) ∧ .sees loc m ∈ s.sh.trace ∧ interpolate v.cmd ⟨m, c.env⟩ = .ok spec.cmd := by
  obtain ⟨a, b, ht⟩ := List.append_of_mem he
  obtain ⟨-, ⟨T, v, g, m0, call, tenv, m, text, env, dir, fr, h1, h2, h3, h4, h5, h6, h7, rfl, h9⟩, -⟩ := Safe.event_ok h ht
  refine ⟨v, m, h2, by rw [ht]; exact List.mem_append_left _ h5, ?_⟩
  exact (prepare_inv h6).1

/-- C105, for harmless values (partial: other values are not kept apart from the command, `C105_injected`, `C105_quoted`). If none
of the values that the variables have at a command can do harm where its reference stands, the shell reads the command that is
started as its author meant it. -/
theorem C105_meant_partial (h : Reach (Bab.start c tasks gvars main) s) {loc : Loc} {spec : ProcSpec}
    (he : .procStart loc spec ∈ s.sh.trace) :
    ∃ v m, itemAt tasks loc = some (.command v) ∧ .sees loc m ∈ s.sh.trace ∧
      ∀ ts, Reads v.cmd ts → NoNul v.cmd → (∀ n x, n ∈ refs ts → value m.get? c.env n = some x → NoNul x) →
        Harmless Shell.start (syms (value m.get? c.env) ts) →
        read Shell.start spec.cmd = meant Shell.start (syms (value m.get? c.env) ts) := by
  obtain ⟨v, m, h1, h2, h3⟩ := started_text h he
  refine ⟨v, m, h1, h2, fun ts hr hn hv hh => ?_⟩
  have hren := (C01_interpolate_single_pass ⟨m, c.env⟩ v.cmd ts hr hn hv spec.cmd).mp h3
  rw [fill_syms hren]
  exact read_fill _ _ hh

/-- C105. A command without references is the same whatever the user answers and whatever the variables are. -/
theorem C105_constant (h : Reach (Bab.start c tasks gvars main) s) {loc : Loc} {spec : ProcSpec}
    (he : .procStart loc spec ∈ s.sh.trace) {v : CommandRun} (hi : itemAt tasks loc = some (.command v)) {ts : List Tok} (hr : Reads v.cmd ts)
    (hn : NoNul v.cmd) (h0 : refs ts = []) : some spec.cmd = render (fun _ => none) ts := by
  obtain ⟨v', m, h1, h2, h3⟩ := started_text h he
  rw [hi] at h1
  cases h1
  have hren := (C01_interpolate_single_pass ⟨m, c.env⟩ v.cmd ts hr hn (by rw [h0]; intro n x hx; cases hx) spec.cmd).mp h3
  have : ∀ (val val' : Str → Option Str) (ts : List Tok), refs ts = [] → render val ts = render val' ts := by
    intro val val' ts
    induction ts with
    | nil => intro _; rfl
    | cons t ts ih =>
      intro h0
      cases t with
      | chr x => simp only [render]; rw [ih h0]
      | esc => simp only [render]; rw [ih h0]
      | ref n => cases h0
  rw [← hren]
  exact this _ _ _ h0

theorem plain_append {a b : Str} (ha : Plain a) (hb : Plain b) : Plain (a ++ b) := by
  intro x hx
  rcases List.mem_append.mp hx with h | h
  · exact ha x h
  · exact hb x h

theorem plain_digits {ds : Str} (h : ds.all (fun c => '0' ≤ c ∧ c ≤ '9') = true) : Plain ds := by
  intro x hx
  have := List.all_eq_true.mp h x hx
  simp only [decide_eq_true_eq] at this
  left
  have hd : x.isDigit = true := by
    unfold Char.isDigit
    rw [Bool.and_eq_true, decide_eq_true_eq, decide_eq_true_eq]
    exact this
  simp [isName, Char.isAlphanum, hd]

theorem plain_atoi {a : Str} {v : Int} (h : Yaml.atoi a = some v) : Plain a ∧ a ≠ [] := by
  have key : ∀ (ds : Str) (x : Option Int), (if ds = [] ∨ ¬ ds.all (fun c => '0' ≤ c ∧ c ≤ '9') then none else x) = some v → Plain ds ∧ ds ≠ [] := by
    intro ds x hx
    split at hx
    · cases hx
    · next hd => rw [not_or, not_not] at hd; exact ⟨plain_digits hd.2, hd.1⟩
  unfold Yaml.atoi at h
  split at h
  next neg ds heq =>
    have hk := key _ _ h
    split at heq
    · cases heq; exact ⟨plain_append (a := ['-']) (by intro x hx; simp at hx; subst hx; right; decide) hk.1, by simp⟩
    · cases heq; exact ⟨plain_append (a := ['+']) (by intro x hx; simp at hx; subst hx; right; decide) hk.1, by simp⟩
    · cases heq; exact hk

theorem plain_joined : ∀ xs : List Str, (∀ o ∈ xs, Plain o) → Plain ([','].intercalate xs)
  | [], _ => by intro x hx; simp at hx
  | [a], h => by rw [List.intercalate_singleton]; exact h a (by simp)
  | a :: b :: r, h => by
    have := plain_joined (b :: r) (fun o ho => h o (by simp [ho]))
    rw [List.intercalate_cons_cons]
    refine plain_append (plain_append (h a (by simp)) ?_) this
    intro x hx
    simp at hx
    subst hx
    right
    decide

/-- C105. What a user chooses on a terminal is plain if the options are: answers to questions for yes or no and for numbers, and
choices among plain options. -/
theorem C105_chosen {L : Forms.Library} (hL : Forms.Spec.Lawful L) {p : PromptRun} {message a : Str} (hopt : p.type = .select → p.options ≠ [])
    (hn : p.type = .number → p.default = [] ∨ a ≠ []) (ht : p.type ≠ .input ∧ p.type ≠ .password) (hp : ∀ o ∈ p.options, Plain o ∧ o ≠ [])
    (h : Forms.runPrompt L true p message = .ok a) : Plain a ∧ (p.type ≠ .multiselect → a ≠ []) := by
  have hf := Forms.C60_answer_fits hL hopt hn h
  unfold Forms.Spec.Fits at hf
  cases hty : p.type with
  | confirm =>
    rw [hty] at hf
    rcases hf with rfl | rfl
    · exact ⟨fun x hx => .inl (by revert x; decide), by simp⟩
    · exact ⟨fun x hx => .inl (by revert x; decide), by simp⟩
  | input => exact absurd hty ht.1
  | password => exact absurd hty ht.2
  | select => rw [hty] at hf; exact ⟨(hp a hf).1, fun _ => (hp a hf).2⟩
  | number => rw [hty] at hf; obtain ⟨v, hv, -⟩ := hf; exact ⟨(plain_atoi hv).1, fun _ => (plain_atoi hv).2⟩
  | other => rw [hty] at hf; exact hf.elim
  | multiselect =>
    rw [hty] at hf
    obtain ⟨xs, hs, rfl, -⟩ := hf
    refine ⟨?_, fun hh => absurd rfl hh⟩
    exact plain_joined xs (fun o ho => (hp o (hs.subset ho)).1)

end

/-- a task that asks for a tag -/
def Sample.tagging (cmd : String) (env : GoMap Str) : TaskMap :=
  [(Sample.s "tag", { name := Sample.s "tag", vars := some [], run := [Sample.ask "x", .command { cmd := Sample.s cmd, env := env }] })]

/-- a run of it -/
def Sample.tagRun (cmd : String) (env : GoMap Str) (ans : String) : State :=
  Exec.drive [.auto 7, .rep (.say (Sample.s ans)) 1, .auto 100] (Bab.start {} (Sample.tagging cmd env) [] (Sample.s "tag"))

/-- the process of it -/
def Sample.tagSpec (cmd : String) (env : Option (GoMap Str)) : ProcSpec :=
  { shell := "sh".toList, arg := "-c".toList, cmd := Sample.s cmd, env := env, dir := ".".toList, out := .terminal, stdin := true }

/-- C105 fails for other values: what the user types at a prompt is run by the shell. Whatever the answer is, the author of the Babfile
wrote one command; with this answer there are two. -/
theorem C105_injected : ∃ s : State, Reach (Bab.start {} (Sample.tagging "git tag ${{ x }}" []) [] (Sample.s "tag")) s ∧
    .answered ⟨Sample.s "tag", 0, none⟩ (Sample.s "x") (.ok (Sample.s "v1; rm -rf .")) ∈ s.sh.trace ∧
    .procStart ⟨Sample.s "tag", 1, none⟩ (Sample.tagSpec "git tag v1; rm -rf ." none) ∈ s.sh.trace ∧
    operators (Sample.s "git tag v1") = [] ∧ operators (Sample.tagSpec "git tag v1; rm -rf ." none).cmd = [';'] :=
  ⟨Sample.tagRun "git tag ${{ x }}" [] "v1; rm -rf .", Exec.reach _ _, by decide +kernel, by decide +kernel, by decide +kernel, by decide +kernel⟩

/-- C105. Quotation marks around the reference do not help, since the value may contain them. -/
theorem C105_quoted : ∃ s : State, Reach (Bab.start {} (Sample.tagging "git tag '${{ x }}'" []) [] (Sample.s "tag")) s ∧
    .answered ⟨Sample.s "tag", 0, none⟩ (Sample.s "x") (.ok (Sample.s "'; rm -rf . '")) ∈ s.sh.trace ∧
    .procStart ⟨Sample.s "tag", 1, none⟩ (Sample.tagSpec "git tag ''; rm -rf . ''" none) ∈ s.sh.trace ∧
    operators (Sample.tagSpec "git tag ''; rm -rf . ''" none).cmd = [';'] :=
  ⟨Sample.tagRun "git tag '${{ x }}'" [] "'; rm -rf . '", Exec.reach _ _, by decide +kernel, by decide +kernel, by decide +kernel⟩

/-- between single quotes a value without single quotes is harmless, with blanks and operators in it; the command reads as meant -/
example : Harmless Shell.start (syms (fun _ => some (Sample.s "v1; rm")) [.chr 'a', .chr ' ', .chr '\'', .ref (Sample.s "x"), .chr '\'']) ∧
    read Shell.start (Sample.s "a 'v1; rm'") =
      [('a', .text), (' ', .blank), ('\'', .quote), ('v', .text), ('1', .text), (';', .text), (' ', .text), ('r', .text), ('m', .text),
       ('\'', .quote)] :=
  ⟨⟨.inl ⟨rfl, by decide⟩, trivial⟩, by decide +kernel⟩

/-- a plain value outside of quotes -/
example : Harmless Shell.start (syms (fun _ => some (Sample.s "v1.2-rc")) [.chr 'a', .chr ' ', .ref (Sample.s "x"), .chr ';']) :=
  ⟨.inr (.inr ⟨by decide, by unfold Plain; decide, by decide⟩), trivial⟩

/-- a run to which `C105_meant_partial` applies -/
example : .procStart ⟨Sample.s "tag", 1, none⟩ (Sample.tagSpec "git tag v1.2" none) ∈ (Sample.tagRun "git tag ${{ x }}" [] "v1.2").sh.trace := by
  decide +kernel

/-- handed over in the environment, the answer does no harm: the command has no reference, and the answer is the value of a variable -/
example : .procStart ⟨Sample.s "tag", 1, none⟩ (Sample.tagSpec "git tag \"$TAG\"" (some [(Sample.s "TAG", Sample.s "v1; rm -rf .")])) ∈
    (Sample.tagRun "git tag \"$TAG\"" [(Sample.s "TAG", Sample.s "${{ x }}")] "v1; rm -rf .").sh.trace := by decide +kernel

/-- a letter lengthens the name of a variable, and is not harmless there -/
example : ¬ Keeps (step ⟨[], .dollar⟩ .name).2 (Sample.s "x") := by unfold Keeps Plain; decide +kernel

/-- `C105_chosen` applies to a choice among plain options -/
example : Forms.runPrompt Forms.Sample.enter true
    { prompt := "e".toList, type := .select, message := [], options := ["dev".toList, "prod".toList] } [] = .ok "dev".toList ∧
    ∀ o ∈ ["dev".toList, "prod".toList], Plain o ∧ o ≠ [] := ⟨rfl, by unfold Plain; decide +kernel⟩

end Bab
