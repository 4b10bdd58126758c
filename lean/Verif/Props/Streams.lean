import Verif.Spec.Streams
import Verif.Props.Report
import Verif.Props.Outcome
/-
C118: standard output is what the commands print.
-/

namespace Bab
open Spec Own

section
variable {c : Cfg} {tasks : TaskMap} {gvars : GoMap Str} {main : Str} {s : State}

theorem mem_on {st : Streams.Stream} {verbose : Bool} {t : List Ev} {x : Streams.Text} :
    x ∈ Streams.on st verbose t ↔ ∃ e ∈ t, (st, x) ∈ Streams.written verbose e := by
  unfold Streams.on
  constructor
  · intro h
    obtain ⟨⟨a, b⟩, h1, h2⟩ := List.mem_filterMap.mp h
    obtain ⟨e, h3, h4⟩ := List.mem_flatMap.mp h1
    dsimp only at h2
    split at h2
    · rename_i h5; cases h2; subst h5; exact ⟨e, h3, h4⟩
    · cases h2
  · rintro ⟨e, h1, h2⟩
    exact List.mem_filterMap.mpr ⟨(st, x), List.mem_flatMap.mpr ⟨e, h1, h2⟩, by simp⟩

theorem no_key_in_block {tty : Bool} {mode : ParallelMode} {o : Option Sink} {j : Nat} {x : Sink} (h : InBlock tty mode o j x)
    (hv : tty = false ∨ mode = .interleaved) (ho : ∀ y, o = some y → y.key = []) : x.key = [] := by
  cases h with
  | view ht hm => rcases hv with hv | hv <;> simp_all
  | below ht hm => rcases hv with hv | hv <;> simp_all
  | lines => rfl
  | @within key prefixes j h => exact ho ⟨key, prefixes⟩ rfl

theorem no_key (hv : c.stderrTTY = false ∨ NoViews tasks) {n : Str} {o : Option Sink} (h : Writes c tasks main n o) :
    ∀ x, o = some x → x.key = [] := by
  induction h with
  | main => intro x h; cases h
  | dep _ _ _ ih => exact ih
  | call _ _ _ ih => exact ih
  | item _ hT hi _ hs ih =>
    intro x h
    cases h
    exact no_key_in_block hs (hv.imp id fun hn => hn _ _ _ _ _ _ _ _ _ _ _ _ hT hi) ih
  | ahead _ _ _ _ _ _ ih => exact ih

theorem no_key_at (hv : c.stderrTTY = false ∨ NoViews tasks) {loc : Loc} {o o' : Option Sink} (h : At c tasks loc o o')
    (ho : ∀ x, o = some x → x.key = []) : ∀ x, o' = some x → x.key = [] := by
  cases h with
  | own => exact ho
  | item hT hi hs =>
    intro x h
    cases h
    exact no_key_in_block hs (hv.imp id fun hn => hn _ _ _ _ _ _ _ _ _ _ _ _ hT (List.mem_of_getElem? hi)) ho

/-- a message inside of a block comes from a `log` item that stands in one or in a task that may run in one -/
theorem log_in_block (h : Reach (start c tasks gvars main) s) (hno : NoLogInBlocks tasks) {loc : Loc} {text level : Str} {x : Sink} :
    .logged loc text level (some x) ∉ s.sh.trace := by
  intro he
  obtain ⟨hno1, hno2⟩ := hno
  obtain ⟨a, b, ht⟩ := List.append_of_mem he
  obtain ⟨-, l, m, k2, -, -, k5⟩ := Safe.event_ok h ht
  obtain ⟨g, m, call, h1, h2⟩ := C71_items h (.inr he)
  have hw := C71_task h h1
  generalize ho : (some x : Option Sink) = o at h2
  generalize hc : call.out = co at h2 hw
  cases h2 with
  | @own n i _ =>
    have hb : InBlocks tasks n := inBlocks_of_writes hw (by rw [← ho]; simp)
    unfold itemAt at k2
    cases hT : tasks.get? n with
    | none => simp [hT] at k2
    | some T =>
      simp [hT] at k2
      exact hno1 n T l hb hT (List.mem_of_getElem? k2)
  | @item n i j _ T items labels mode lim color bs bo pl w ln _ hT hi hs =>
    unfold itemAt at k2
    simp [hT, hi] at k2
    exact hno2 n T items labels mode lim color bs bo pl w ln l hT (List.mem_of_getElem? hi) (List.mem_of_getElem? k2)

/-- **C118**, in part: if no `log` item stands in a parallel block or in a task that may run in one, then all that ends on standard
output is what commands that were started print to theirs: no announcement, no message and nothing that commands print to
standard error. Without the condition this is wrong (C118_message_on_stdout). -/
theorem C118_own_partial (h : Reach (start c tasks gvars main) s) (verbose : Bool) (hno : NoLogInBlocks tasks) {x : Streams.Text}
    (hx : x ∈ Streams.on .out verbose s.sh.trace) : ∃ loc spec, x = .stdout loc ∧ .procStart loc spec ∈ s.sh.trace := by
  obtain ⟨e, he, hw⟩ := mem_on.mp hx
  unfold Streams.written at hw
  split at hw
  case h_3 loc text level o =>
    cases o with
    | none => split at hw <;> simp [Streams.message] at hw
    | some y => exact absurd he (log_in_block h hno)
  case h_1 o => cases o <;> simp [Streams.announced, Streams.second] at hw
  case h_2 o => cases o <;> simp [Streams.announced, Streams.second] at hw
  case h_4 loc spec =>
    split at hw <;> simp [Streams.second] at hw
    · exact ⟨loc, spec, hw, he⟩
    · exact ⟨loc, spec, hw.2, he⟩
  all_goals simp at hw

/-- **C118** Whatever the Babfile says, announcements of tasks and commands, what a dry run prints and what commands print to standard
error never end on standard output. -/
theorem C118_never (verbose : Bool) (t : List Ev) : ∀ x ∈ Streams.on .out verbose t,
    (∃ loc, x = .stdout loc) ∨ ∃ loc text, x = .message loc text := by
  intro x hx
  obtain ⟨e, he, hw⟩ := mem_on.mp hx
  unfold Streams.written at hw
  split at hw
  case h_3 loc text level o =>
    split at hw
    · simp at hw; exact .inr ⟨_, _, hw.2⟩
    · cases hw
  case h_1 o => cases o <;> simp [Streams.announced, Streams.second] at hw
  case h_2 o => cases o <;> simp [Streams.announced, Streams.second] at hw
  case h_4 loc spec =>
    split at hw <;> simp [Streams.second] at hw
    · exact .inl ⟨_, hw⟩
    · exact .inl ⟨_, hw.2⟩
  all_goals simp at hw

/-- **C118**, in part: if standard error is no terminal or no block asks for a view, then what a command prints to standard output ends
on standard output and what it prints to standard error ends there, unless its output is switched off. Without the condition
this is wrong (C118_view_keeps_output). -/
theorem C118_commands_partial (h : Reach (start c tasks gvars main) s) (verbose : Bool) (hv : c.stderrTTY = false ∨ NoViews tasks)
    {loc : Loc} {spec : ProcSpec} (he : .procStart loc spec ∈ s.sh.trace) (hs : spec.out ≠ .discard) :
    .stdout loc ∈ Streams.on .out verbose s.sh.trace ∧ .stderr loc ∈ Streams.on .err verbose s.sh.trace := by
  obtain ⟨g, m, call, o, h1, h2, h3, -⟩ := C71_output h he
  have hk := no_key_at hv h2 (no_key hv (C71_task h h1))
  rcases h3 with h3 | h3
  · exact absurd h3 hs
  · cases o with
    | none => exact ⟨mem_on.mpr ⟨_, he, by simp [Streams.written, h3]⟩, mem_on.mpr ⟨_, he, by simp [Streams.written, h3]⟩⟩
    | some y =>
      exact ⟨mem_on.mpr ⟨_, he, by simp [Streams.written, h3, Streams.first, hk y rfl]⟩,
        mem_on.mpr ⟨_, he, by simp [Streams.written, h3, Streams.second]⟩⟩

theorem mem_eq_of_countP {P : Ev → Bool} : ∀ {l : List Ev}, l.countP P ≤ 1 → ∀ {x y}, x ∈ l → y ∈ l → P x = true → P y = true → x = y
  | [], _, _, _, hx, _, _, _ => nomatch hx
  | z :: l, h, x, y, hx, hy, px, py => by
    rw [List.countP_cons] at h
    have pos : ∀ {w}, w ∈ l → P w = true → 0 < l.countP P := fun hw pw => List.countP_pos_iff.mpr ⟨_, hw, pw⟩
    rcases List.mem_cons.mp hx with rfl | hx' <;> rcases List.mem_cons.mp hy with rfl | hy'
    · rfl
    · rw [if_pos px] at h; have := pos hy' py; omega
    · rw [if_pos py] at h; have := pos hx' px; omega
    · exact mem_eq_of_countP (by omega) hx' hy' px py

/-- **C118** A command whose output is switched off leaves nothing on either stream. -/
theorem C118_off (h : Reach (start c tasks gvars main) s) (verbose : Bool) {loc : Loc} {spec : ProcSpec} (he : .procStart loc spec ∈ s.sh.trace)
    (hs : spec.out = .discard) (st : Streams.Stream) :
    .stdout loc ∉ Streams.on st verbose s.sh.trace ∧ .stderr loc ∉ Streams.on st verbose s.sh.trace := by
  have key : ∀ x, x = Streams.Text.stdout loc ∨ x = .stderr loc → x ∉ Streams.on st verbose s.sh.trace := by
    intro x hx hm
    obtain ⟨e, h1, hw⟩ := mem_on.mp hm
    unfold Streams.written at hw
    split at hw
    case h_4 loc' spec' =>
      have hl : loc' = loc := by
        split at hw <;> simp at hw
        all_goals rcases hw with ⟨-, rfl⟩ | ⟨-, rfl⟩ <;> simpa using hx
      subst hl
      have := mem_eq_of_countP (acts_once h loc') h1 he (by simp [acts]) (by simp [acts])
      cases this
      simp [hs] at hw
    case h_3 => split at hw <;> simp at hw; rcases hx with rfl | rfl <;> simp at hw
    all_goals (simp at hw)
    all_goals (rcases hx with rfl | rfl <;> simp at hw)
  exact ⟨key _ (.inl rfl), key _ (.inr rfl)⟩

/-- **C118** A dry run writes nothing to standard output. -/
theorem C118_dry (h : Reach (start c tasks gvars main) s) (verbose : Bool) (hdry : c.dry = true) :
    Streams.on .out verbose s.sh.trace = [] := by
  apply List.eq_nil_iff_forall_not_mem.mpr
  intro x hx
  obtain ⟨e, he, hw⟩ := mem_on.mp hx
  obtain ⟨h1, -, -, -, h2, h3, h4, -⟩ := C20_dry_run_has_no_effects h hdry e he
  unfold Streams.written at hw
  split at hw
  case h_1 => exact h3 _ _ _ rfl
  case h_2 => exact h4 _ _ _ rfl
  case h_3 => exact h2 _ _ _ _ rfl
  case h_4 => exact h1 _ _ rfl
  all_goals simp at hw

end

/-- C118 fails: outside of a block a message goes to standard error, inside of one to standard output. -/
theorem C118_message_on_stdout : ∃ (tasks : TaskMap) (main : Str) (s : State) (loc loc' : Loc) (text text' : Str),
    Reach (start {} tasks [] main) s ∧ .message loc text ∈ Streams.on .err false s.sh.trace ∧
    .message loc' text' ∈ Streams.on .out false s.sh.trace :=
  ⟨Sample.chatty, Sample.s "t", Sample.chattyRun, ⟨Sample.s "t", 1, none⟩, ⟨Sample.s "t", 2, some 1⟩, Sample.s "hi", Sample.s "secret",
    Exec.reach _ _, by decide +kernel, by decide +kernel⟩

/-- C118 fails: what a command prints to standard output does not get there if it runs in a view, although
its output is not switched off; so a file that standard output is redirected to stays empty. -/
theorem C118_view_keeps_output : ∃ (tasks : TaskMap) (main : Str) (s : State),
    Reach (start { stderrTTY := true } tasks [] main) s ∧ Exec.result s = some none ∧
    (∃ loc spec, .procStart loc spec ∈ s.sh.trace ∧ spec.out ≠ .discard) ∧
    ∀ verbose, Streams.on .out verbose s.sh.trace = [] := by
  refine ⟨[(Sample.s "t", { name := Sample.s "t", run := [.parallel [Sample.cmd "gen"] [] .grouped 0 none none none [] [] 0] })], Sample.s "t",
    Exec.drive [.auto 400] (start { stderrTTY := true } _ [] (Sample.s "t")), Exec.reach _ _, by decide +kernel, ?_, by decide +kernel⟩
  have : (Exec.drive [.auto 400] (start { stderrTTY := true }
      [(Sample.s "t", { name := Sample.s "t", run := [.parallel [Sample.cmd "gen"] [] .grouped 0 none none none [] [] 0] })] [] (Sample.s "t"))).sh.trace.any
      (fun e => match e with | .procStart _ spec => decide (spec.out ≠ .discard) | _ => false) = true := by decide +kernel
  obtain ⟨e, h1, h2⟩ := List.any_eq_true.mp this
  split at h2
  · exact ⟨_, _, h1, of_decide_eq_true h2⟩
  · cases h2

namespace Sample

/-- a command and a message outside of blocks, a block that calls a task with a command, and a command whose output is switched off -/
def piped : TaskMap :=
  [(s "t", { name := s "t", run := [cmd "ls", .log { log := s "hi", level := s "warn" }, par [call "u"], .command { cmd := s "quiet", output := some false }] }),
   (s "u", { name := s "u", run := [cmd "gen"] })]

def pipedRun : State := Exec.drive [.auto 400] (start { stderrTTY := true } piped [] (s "t"))

theorem piped_cases {n : Str} {T : Task} (h : piped.get? n = some T) :
    T.deps = [] ∧ ((n = s "t" ∧ T.run = [cmd "ls", .log { log := s "hi", level := s "warn" }, par [call "u"], .command { cmd := s "quiet", output := some false }]) ∨
      (n = s "u" ∧ T.run = [cmd "gen"])) := by
  unfold piped at h
  by_cases h1 : n = s "t"
  · subst h1; cases h; exact ⟨rfl, .inl ⟨rfl, rfl⟩⟩
  · by_cases h2 : n = s "u"
    · subst h2; cases h; exact ⟨rfl, .inr ⟨rfl, rfl⟩⟩
    · simp [GoMap.get?, h1, h2, Ne.symm h1, Ne.symm h2] at h

theorem piped_blocks {n : Str} (h : InBlocks piped n) : n = s "u" := by
  induction h with
  | item hT hi ht =>
    rcases (piped_cases hT).2 with ⟨-, hr⟩ | ⟨-, hr⟩ <;> rw [hr] at hi <;> simp [cmd, par, call] at hi
    obtain ⟨rfl, -⟩ := hi
    simp at ht
    rw [ht]
  | dep _ hT hd _ => rw [(piped_cases hT).1] at hd; cases hd
  | call _ hT hi _ => rcases (piped_cases hT).2 with ⟨-, hr⟩ | ⟨-, hr⟩ <;> rw [hr] at hi <;> simp [cmd, par, call] at hi

end Sample
open Sample

/-- the conditions of the theorems are met, and standard output has what the two commands print -/
example : NoLogInBlocks piped ∧ NoViews piped ∧ Reach (start { stderrTTY := true } piped [] (s "t")) pipedRun ∧
    Streams.on .out false pipedRun.sh.trace = [.stdout ⟨s "t", 0, none⟩, .stdout ⟨s "u", 0, none⟩] ∧
    Streams.on .err false pipedRun.sh.trace = [.task (s "t"), .command ⟨s "t", 0, none⟩ (s "ls"), .stderr ⟨s "t", 0, none⟩,
      .message ⟨s "t", 1, none⟩ (s "hi"), .task (s "u"), .command ⟨s "u", 0, none⟩ (s "gen"), .stderr ⟨s "u", 0, none⟩,
      .command ⟨s "t", 3, none⟩ (s "quiet")] := by
  refine ⟨⟨fun n T l hb hT hl => ?_, fun n T items labels mode lim color bs bo pl w ln l hT hi hl => ?_⟩,
    fun n T items labels mode lim color bs bo pl w ln hT hi => ?_, Exec.reach _ _, by decide +kernel, by decide +kernel⟩
  · rcases (piped_cases hT).2 with ⟨hn, -⟩ | ⟨-, hr⟩
    · rw [piped_blocks hb] at hn; exact absurd hn (by decide +kernel)
    · rw [hr] at hl; simp [cmd] at hl
  · rcases (piped_cases hT).2 with ⟨-, hr⟩ | ⟨-, hr⟩ <;> rw [hr] at hi <;> simp [cmd, par, call] at hi
    obtain ⟨rfl, -⟩ := hi
    simp at hl
  · rcases (piped_cases hT).2 with ⟨-, hr⟩ | ⟨-, hr⟩ <;> rw [hr] at hi <;> simp [cmd, par, call] at hi
    exact hi.2.2.1

/-- a dry run that would run commands -/
example : (Streams.on .err false (Exec.drive [.auto 400] (start { dry := true } piped [] (s "t"))).sh.trace).length = 4 := by decide +kernel

end Bab
