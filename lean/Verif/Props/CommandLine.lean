import Verif.Proof.CommandLine
import Verif.Props.Cli
/-
C95: the command line means what it says.
-/

namespace Bab
open CmdLine Spec Spec.Words

/-- C95: arguments are read in one way only, that of the specification: flags and words in any order, and of several statements
about a flag the last one counts. If the specification knows no way to read them, or a flag that is on or off is given another
text, the invocation is an error. -/
theorem C95_reads (args : List Str) (s : Settings) (ws : List Str) :
    readArgs args = .ok (s, ws) ↔ ∃ said, Line args said ws ∧ Sensible said ∧ Means said s := by
  rw [readArgs_ok]
  constructor
  · rintro ⟨said, h1, h2⟩; exact ⟨said, h1, applyAll_iff.mp h2⟩
  · rintro ⟨said, h1, h2⟩; exact ⟨said, h1, applyAll_iff.mpr h2⟩

/-- C95: two ways to read a command line come to the same. -/
theorem C95_one_reading {args : List Str} {said said' : Said} {ws ws' : List Str} (h : Line args said ws) (h' : Line args said' ws')
    (hs : Sensible said) : Sensible said' ∧ ws = ws' ∧ ∀ s, Means said s ↔ Means said' s := by
  have h1 : readArgs args = .ok (meant said, ws) := (C95_reads _ _ _).mpr ⟨said, h, hs, rfl⟩
  have hp := readArgs_line h'
  rw [h1] at hp
  cases he : applyAll said' {} with
  | error e => rw [he] at hp; cases hp
  | ok s' =>
    rw [he] at hp
    obtain ⟨hm, rfl⟩ := Prod.mk.inj (Except.ok.inj hp)
    obtain ⟨h2, h3⟩ := applyAll_iff.mp he
    refine ⟨h2, rfl, fun s => ?_⟩
    have hs' : Means said s ↔ s = meant said := Iff.rfl
    have hs'' : Means said' s ↔ s = meant said' := Iff.rfl
    have h3' : s' = meant said' := h3
    rw [hs', hs'', hm, h3']

/-- C95: two command lines with the same words that say the same come to the same: where the flags stand, in which order, and how
they are spelled makes no difference. -/
theorem C95_same_meaning {args args' : List Str} {said said' : Said} {ws : List Str} (h : Line args said ws) (h' : Line args' said' ws)
    (hs : Sensible said) (hs' : Sensible said') (he : ∀ f, lastSaid f said = lastSaid f said') (w w' : Cli.World) (v v' : Cli.Visit) (pick : Cli.Pick) :
    invoke w w' v v' args pick = invoke w w' v v' args' pick := by
  have hm : meant said = meant said' := by simp only [meant, On, Text, he]
  unfold invoke
  rw [(C95_reads _ (meant said) _).mpr ⟨said, h, hs, rfl⟩, (C95_reads _ (meant said') _).mpr ⟨said', h', hs', rfl⟩, hm]

/-- C95: an argument that looks like a flag and is none is an error, wherever it stands before `--` and whatever follows. -/
theorem C95_unknown {args : List Str} {said : Said} {ws : List Str} (h : Part args said ws) {a : Str} (ha : ¬ IsWord a) (hd : a ≠ ['-', '-'])
    (hg : ∀ next l, ¬ Group (a :: next) l) (more : List Str) (w w' : Cli.World) (v v' : Cli.Visit) (pick : Cli.Pick) :
    ∃ e, invoke w w' v v' (args ++ a :: more) pick = .usage e := by
  obtain ⟨fuel', h1, h2⟩ := part_step h (a :: more) {} (args ++ a :: more).length [] (by rw [List.length_append])
  have hp : ∃ e, readArgs (args ++ a :: more) = .error e := by
    unfold readArgs
    rw [h2]
    cases applyAll said {} with
    | error e => exact ⟨e, rfl⟩
    | ok s =>
      dsimp only
      cases hr : parseArgs fuel' (a :: more) s ([] ++ ws) with
      | error e => exact ⟨e, rfl⟩
      | ok r =>
        obtain ⟨s', ws'⟩ := r
        exfalso
        obtain ⟨said', ws'', hl, -⟩ := parseArgs_sound h1 hr
        have hpart : ∀ {args : List Str} {l : Said} {ws : List Str}, Part args l ws → args.head? ≠ some a := by
          intro args l ws hp
          cases hp with
          | nil => simp
          | word hw _ =>
            simp only [List.head?_cons, ne_eq, Option.some.injEq]
            rintro rfl
            exact ha hw
          | @group g l' _ _ _ hgr _ =>
            match g, hgr with
            | [], hgr => cases hgr
            | b :: next, hgr =>
              simp only [List.cons_append, List.head?_cons, ne_eq, Option.some.injEq]
              rintro rfl
              exact hg _ _ hgr
        generalize hargs : a :: more = xs at hl
        cases hl with
        | plain hp => exact hpart hp (by rw [← hargs]; rfl)
        | @dashes args' _ _ hp more' =>
          match args', hp with
          | [], _ => exact hd (List.cons.inj hargs).1
          | b :: as, hp => exact hpart hp (by rw [(List.cons.inj hargs).1]; rfl)
  obtain ⟨e, he⟩ := hp
  exact ⟨e, by unfold invoke; rw [he]⟩

/-- the settings of an invocation that runs something -/
theorem invoke_did {args : List Str} {said : Said} {ws : List Str} (h : Line args said ws) {w w' : Cli.World} {v v' : Cli.Visit}
    {pick : Cli.Pick} {o : Cli.Outcome} (hi : invoke w w' v v' args pick = .did o) :
    Sensible said ∧ On .help said = false ∧ On .version said = false ∧ o = Cli.run w w' v v' (meant said).flags ws pick := by
  unfold invoke at hi
  have hp := readArgs_line h
  cases he : applyAll said {} with
  | error e => rw [hp, he] at hi; cases hi
  | ok s =>
    rw [hp, he] at hi
    obtain ⟨h1, h2⟩ := applyAll_iff.mp he
    have h2' : s = meant said := h2
    subst h2'
    change (if (meant said).help then Answer.help else if (meant said).version then .version else .did (Cli.run w w' v v' (meant said).flags ws pick)) = _ at hi
    split at hi
    · cases hi
    · next hh =>
      split at hi
      · cases hi
      · next hv => exact ⟨h1, (by simpa using hh : (meant said).help = false), (by simpa using hv : (meant said).version = false), (Answer.did.inj hi).symm⟩

/-- C95: if the last thing said about `--dry-run` is that it is on, no process is started. -/
theorem C95_dry_run {args : List Str} {said : Said} {ws : List Str} (h : Line args said ws) (hn : On .dryRun said = true) {w w' : Cli.World}
    {v v' : Cli.Visit} {pick : Cli.Pick} {c : Cfg} {tasks : TaskMap} {gvars : GoMap Str} {name : Str}
    (hi : invoke w w' v v' args pick = .did (.run c tasks gvars name)) {s : State} (hr : Reach (start c tasks gvars name) s) : NoProcess s := by
  obtain ⟨-, -, -, h4⟩ := invoke_did h hi
  exact (C64_dry_run h4.symm).2 hn s hr

/-- C95: in particular if `-n` or `--dry-run` is added anywhere before `--`, in front of an argument that is not the value of a
flag, unless `--dry-run=…` follows. -/
theorem C95_dry_anywhere {a b g : List Str} {said said' : Said} {ws ws' : List Str} (ha : Part a said ws) (hb : Line b said' ws')
    (hg : g = [['-', 'n']] ∨ g = [['-', '-', 'd', 'r', 'y', '-', 'r', 'u', 'n']]) (hno : ∀ v, (Flag.dryRun, v) ∉ said') {w w' : Cli.World}
    {v v' : Cli.Visit} {pick : Cli.Pick} {c : Cfg} {tasks : TaskMap} {gvars : GoMap Str} {name : Str}
    (hi : invoke w w' v v' (a ++ g ++ b) pick = .did (.run c tasks gvars name)) {s : State} (hr : Reach (start c tasks gvars name) s) : NoProcess s := by
  have hgr : Group g [(.dryRun, trueText)] := by
    rcases hg with rfl | rfl
    · exact .shorts (.last (by simp [Short]) rfl)
    · exact .name (f := .dryRun) rfl
  have hl : Line (a ++ (g ++ b)) (said ++ ([(.dryRun, trueText)] ++ said')) (ws ++ ws') := by
    have := line_group hgr hb
    revert this
    generalize g ++ b = x
    generalize [(Flag.dryRun, trueText)] ++ said' = y
    intro hx
    clear hi
    induction ha with
    | nil => exact hx
    | word hw _ ih => exact line_word hw ih
    | group hg' _ ih => rw [List.append_assoc, List.append_assoc]; exact line_group hg' ih
  rw [List.append_assoc] at hi
  refine C95_dry_run hl ?_ hi hr
  have : lastSaid .dryRun (said ++ ([(.dryRun, trueText)] ++ said')) = some trueText := by
    unfold lastSaid
    rw [List.reverse_append, List.reverse_append, List.find?_append, List.find?_append]
    have : said'.reverse.find? (fun p => p.1 = Flag.dryRun) = none := by
      rw [List.find?_eq_none]
      intro p hp hp'
      obtain ⟨f, x⟩ := p
      have : f = Flag.dryRun := by simpa using hp'
      subst this
      exact hno x (List.mem_reverse.mp hp)
    rw [this]
    simp
  rw [On, this]
  decide

/-- C95: after `--` every argument is a word, so a task can be run whatever its name is. -/
theorem C95_dashes {args : List Str} {said : Said} {ws : List Str} (h : Part args said ws) (hs : Sensible said) (more : List Str) (s : Settings)
    (hm : Means said s) : readArgs (args ++ ['-', '-'] :: more) = .ok (s, ws ++ more) :=
  (C95_reads _ _ _).mpr ⟨said, .dashes h more, hs, hm⟩

/-- C95: of several words only the first one counts (finding 24). -/
theorem C95_first_word {args args' : List Str} {said : Said} {x : Str} {ws ws' : List Str} (h : Line args said (x :: ws)) (h' : Line args' said (x :: ws'))
    (w w' : Cli.World) (v v' : Cli.Visit) (pick : Cli.Pick) : invoke w w' v v' args pick = invoke w w' v v' args' pick := by
  unfold invoke
  rw [readArgs_line h, readArgs_line h']
  cases applyAll said {} with
  | error e => rfl
  | ok s => rfl

/-- C95: help is given, and nothing else is done, whatever else is said that can be read. -/
theorem C95_help {args : List Str} {said : Said} {ws : List Str} (h : Line args said ws) (hs : Sensible said) (hh : On .help said = true)
    (w w' : Cli.World) (v v' : Cli.Visit) (pick : Cli.Pick) : invoke w w' v v' args pick = .help := by
  unfold invoke
  rw [(C95_reads _ (meant said) _).mpr ⟨said, h, hs, rfl⟩]
  exact if_pos hh

/-- An empty text for `--completion` counts as none: the command line that should print a script runs the task. -/
theorem C95_empty_value (x : Str) (hx : IsWord x) (w w' : Cli.World) (v v' : Cli.Visit) (pick : Cli.Pick) :
    invoke w w' v v' [['-', 'c'], [], x] pick = invoke w w' v v' [x] pick := by
  have h : Line [['-', 'c'], [], x] [(.completion, [])] [x] :=
    .plain (.group (g := [['-', 'c'], []]) (.shorts (.next (c := 'c') (by simp [Short]) rfl)) (.word hx .nil))
  have h' : Line [x] [] [x] := .plain (.word hx .nil)
  unfold invoke
  rw [readArgs_line h, readArgs_line h']
  rfl

/-- the words for on and off -/
theorem parseBool_words (v : Str) : (parseBool v = some true ↔ v ∈ yes) ∧ (parseBool v = some false ↔ v ∈ no) := by
  have hy : ∀ v, v ∈ yes ↔ v ∈ [['1'], ['t'], ['T'], ['T', 'R', 'U', 'E'], ['t', 'r', 'u', 'e'], ['T', 'r', 'u', 'e']] := by
    intro v; simp only [yes, List.map, List.mem_cons, List.not_mem_nil, or_false]; tauto
  have hn : ∀ v, v ∈ no ↔ v ∈ [['0'], ['f'], ['F'], ['F', 'A', 'L', 'S', 'E'], ['f', 'a', 'l', 's', 'e'], ['F', 'a', 'l', 's', 'e']] := by
    intro v; simp only [no, List.map, List.mem_cons, List.not_mem_nil, or_false]; tauto
  have hd : v ∈ yes → v ∉ no := by
    have : ∀ v ∈ yes, v ∉ no := by decide +kernel
    exact this v
  unfold parseBool
  rw [hy, hn] at *
  split
  · next h => exact ⟨by simp [h], by simp only [Option.some.injEq, Bool.true_eq_false, false_iff]; exact hd h⟩
  · next h =>
    split
    · next h' => exact ⟨by simp [h], by simp [h']⟩
    · next h' => exact ⟨by simp [h], by simp [h']⟩

theorem readArgs_equals (f : Flag) (v : Str) : readArgs [long (f.name ++ '=' :: v)] = (applyAll [(f, v)] {}).map (·, []) := by
  have := readArgs_line (.plain (.group (.equals f v) .nil))
  rw [List.append_nil] at this
  exact this

theorem readArgs_name {f : Flag} (hv : f.takesValue = false) : readArgs [long f.name] = (applyAll [(f, trueText)] {}).map (·, []) :=
  readArgs_line (.plain (.group (.name hv) .nil))

theorem readArgs_next {f : Flag} (hv : f.takesValue = true) (v : Str) : readArgs [long f.name, v] = (applyAll [(f, v)] {}).map (·, []) :=
  readArgs_line (.plain (.group (.next hv v) .nil))

/-- C95: the documented flags that are on or off are spelled as documented and turn on what they are documented to turn on; the
documented words, and no others, are values for them. -/
theorem C95_switch {n : String} {on : Settings} (h : (n, on) ∈ switches) :
    readArgs [long n.toList] = .ok (on, []) ∧
    (∀ v ∈ yes, readArgs [long (n.toList ++ '=' :: v)] = .ok (on, [])) ∧
    (∀ v ∈ no, readArgs [long (n.toList ++ '=' :: v)] = .ok ({}, [])) ∧
    ∀ v, v ∉ yes → v ∉ no → ∃ e, readArgs [long (n.toList ++ '=' :: v)] = .error e := by
  have key : ∃ f : Flag, f.name = n.toList ∧ f.takesValue = false ∧ (∀ v, parseBool v = some true → set f v {} = .ok on) ∧
      (∀ v, parseBool v = some false → set f v {} = .ok {}) ∧ ∀ v, parseBool v = none → set f v {} = .error (.invalid f v) := by
    simp only [switches, List.mem_cons, List.not_mem_nil, or_false, Prod.mk.injEq] at h
    rcases h with ⟨rfl, rfl⟩ | ⟨rfl, rfl⟩ | ⟨rfl, rfl⟩ | ⟨rfl, rfl⟩ | ⟨rfl, rfl⟩ | ⟨rfl, rfl⟩
    · exact ⟨.verbose, rfl, rfl, fun v hv => by simp [CmdLine.set, hv], fun v hv => by simp [CmdLine.set, hv], fun v hv => by simp [CmdLine.set, hv]⟩
    · exact ⟨.dryRun, rfl, rfl, fun v hv => by simp [CmdLine.set, hv], fun v hv => by simp [CmdLine.set, hv], fun v hv => by simp [CmdLine.set, hv]⟩
    · exact ⟨.list, rfl, rfl, fun v hv => by simp [CmdLine.set, hv], fun v hv => by simp [CmdLine.set, hv], fun v hv => by simp [CmdLine.set, hv]⟩
    · exact ⟨.validate, rfl, rfl, fun v hv => by simp [CmdLine.set, hv], fun v hv => by simp [CmdLine.set, hv], fun v hv => by simp [CmdLine.set, hv]⟩
    · exact ⟨.help, rfl, rfl, fun v hv => by simp [CmdLine.set, hv], fun v hv => by simp [CmdLine.set, hv], fun v hv => by simp [CmdLine.set, hv]⟩
    · exact ⟨.version, rfl, rfl, fun v hv => by simp [CmdLine.set, hv], fun v hv => by simp [CmdLine.set, hv], fun v hv => by simp [CmdLine.set, hv]⟩
  obtain ⟨f, hf, hv, h1, h2, h3⟩ := key
  rw [← hf]
  refine ⟨?_, fun v hy => ?_, fun v hn => ?_, fun v hy hn => ?_⟩
  · rw [readArgs_name hv, applyAll_one.mpr (h1 _ (by decide))]; rfl
  · rw [readArgs_equals, applyAll_one.mpr (h1 _ ((parseBool_words v).1.mpr hy))]; rfl
  · rw [readArgs_equals, applyAll_one.mpr (h2 _ ((parseBool_words v).2.mpr hn))]; rfl
  · refine ⟨.invalid f v, ?_⟩
    have : parseBool v = none := by
      cases hb : parseBool v with
      | none => rfl
      | some b =>
        cases b with
        | true => exact absurd ((parseBool_words v).1.mp hb) hy
        | false => exact absurd ((parseBool_words v).2.mp hb) hn
    rw [readArgs_equals, applyAll, h3 v this]; rfl

/-- C95: the documented flags that take a text take every text, behind `=` or as the next argument, even if that looks like a flag;
they cannot be given without one. -/
theorem C95_text {n : String} {put : Str → Settings} (h : (n, put) ∈ texts) (v : Str) :
    readArgs [long (n.toList ++ '=' :: v)] = .ok (put v, []) ∧ readArgs [long n.toList, v] = .ok (put v, []) ∧
    ∃ e, readArgs [long n.toList] = .error e := by
  have key : ∃ f : Flag, f.name = n.toList ∧ f.takesValue = true ∧ ∀ v, set f v {} = .ok (put v) := by
    simp only [texts, List.mem_cons, List.not_mem_nil, or_false, Prod.mk.injEq] at h
    rcases h with ⟨rfl, rfl⟩ | ⟨rfl, rfl⟩
    · exact ⟨.babfile, rfl, rfl, fun v => rfl⟩
    · exact ⟨.completion, rfl, rfl, fun v => rfl⟩
  obtain ⟨f, hf, hv, h1⟩ := key
  rw [← hf]
  refine ⟨?_, ?_, .noArgument f, ?_⟩
  · rw [readArgs_equals, applyAll_one.mpr (h1 v)]; rfl
  · rw [readArgs_next hv, applyAll_one.mpr (h1 v)]; rfl
  · cases f with
    | babfile => decide +kernel
    | completion => decide +kernel
    | _ => cases hv

/-- C95: and there are no other long flags: another name is an error, with a value or without one. -/
theorem C95_no_others {n : Str} (h0 : n ≠ []) (he : '=' ∉ n) (h1 : ∀ p ∈ switches, p.1.toList ≠ n) (h2 : ∀ p ∈ texts, p.1.toList ≠ n) (more : List Str) :
    (∃ e, readArgs (long n :: more) = .error e) ∧ ∀ v, ∃ e, readArgs (long (n ++ '=' :: v) :: more) = .error e := by
  have key : ∀ f : Flag, f.name ≠ n := by
    have g1 : ∀ p ∈ switches.map (·.1.toList), p ≠ n := by
      rintro p hp rfl
      obtain ⟨q, hq, he⟩ := List.mem_map.mp hp
      exact h1 q hq he
    have g2 : ∀ p ∈ texts.map (·.1.toList), p ≠ n := by
      rintro p hp rfl
      obtain ⟨q, hq, he⟩ := List.mem_map.mp hp
      exact h2 q hq he
    intro f
    cases f with
    | babfile => exact g2 _ (by decide +kernel)
    | completion => exact g2 _ (by decide +kernel)
    | _ => exact g1 _ (by decide +kernel)
  have hnone : Flag.all.find? (fun f => f.name = n) = none := by
    rw [List.find?_eq_none]
    intro f _ hf
    exact key f (by simpa using hf)
  have hne : ∀ c ∈ n, c ≠ '=' := fun c hc e => he (e ▸ hc)
  have hall : n.takeWhile (· ≠ '=') = n := List.takeWhile_eq_self_iff.mpr (fun c hc => by simpa using hne c hc)
  have bad : ∀ m : Str, m ≠ [] → m.takeWhile (· ≠ '=') = n → ∃ e, readArgs (long m :: more) = .error e := by
    intro m hm ht
    have hl : ∃ e, parseLong m more {} = .error e := by
      unfold parseLong
      split
      · exact ⟨_, rfl⟩
      · rw [ht, hnone]; exact ⟨_, rfl⟩
    obtain ⟨e, hl⟩ := hl
    refine ⟨e, ?_⟩
    unfold readArgs long
    rw [List.length_cons, parseArgs_long hm, hl]
  refine ⟨bad n h0 hall, fun v => bad _ (by simp) ?_⟩
  rw [List.takeWhile_append_of_pos (fun c hc => by simpa using hne c hc)]
  simp

/-! Cases. -/

example : ("dry-run", ({ dryRun := true } : Settings)) ∈ switches ∧ "True".toList ∈ yes ∧ "False".toList ∈ no ∧ "maybe".toList ∉ yes ∧ "maybe".toList ∉ no := by
  refine ⟨?_, by decide +kernel, by decide +kernel, by decide +kernel, by decide +kernel⟩
  simp [switches]

example : ∃ put, ("babfile", put) ∈ texts ∧ put ['x'] = { babfile := ['x'] } := ⟨_, List.mem_cons_self, rfl⟩

example : (∀ p ∈ switches, p.1.toList ≠ "dryrun".toList) ∧ '=' ∉ "dryrun".toList ∧ ∀ p ∈ texts.map (·.1), p.toList ≠ "dryrun".toList := by decide +kernel

namespace CmdLine.Sample

def str (s : String) : Str := s.toList

example : readArgs [str "build", str "-n", str "-b", str "x.yml"] = .ok ({ dryRun := true, babfile := str "x.yml" }, [str "build"]) := by decide +kernel

example : readArgs [str "-vnbx.yml", str "--", str "-n"] = .ok ({ verbose := true, dryRun := true, babfile := str "x.yml" }, [str "-n"]) := by decide +kernel

/-- here `-n` is the name of the file -/
example : readArgs [str "-b", str "-n", str "build"] = .ok ({ babfile := str "-n" }, [str "build"]) := by decide +kernel

example : readArgs [str "--dry-run", str "t", str "--dry-run=false"] = .ok ({}, [str "t"]) := by decide +kernel

example : readArgs [str "t", str "--dryrun"] = .error (.unknown (str "dryrun")) := by decide +kernel

example : readArgs [str "t", str "-n=maybe"] = .error (.invalid .dryRun (str "maybe")) := by decide +kernel

example : readArgs [str "-b"] = .error (.noArgument .babfile) := by decide +kernel

/-- no group begins with a name that is not that of a flag -/
example : ∀ next l, ¬ Group (['-', '-', 'd', 'r', 'y', 'r', 'u', 'n'] :: next) l := by
  intro next l h
  generalize hg : ['-', '-', 'd', 'r', 'y', 'r', 'u', 'n'] :: next = g at h
  cases h with
  | @name f _ => cases f <;> cases hg
  | equals f v => cases f <;> simp [Flag.name] at hg
  | @next f _ v => cases f <;> simp [Flag.name] at hg
  | @shorts cs n _ h =>
    obtain ⟨c, r, f, rfl, hs⟩ := cluster_head h
    obtain ⟨h1, -⟩ := List.cons.inj hg
    injection h1 with _ h1
    injection h1 with h1
    subst h1
    revert hs; unfold Short; simp

/-- a line with a flag behind the task, and what is said by it -/
example : Line [str "build", ['-', 'n']] [(.dryRun, trueText)] [str "build"] ∧ On .dryRun [(.dryRun, trueText)] = true ∧ Sensible [(.dryRun, trueText)] :=
  ⟨.plain (.word (.inr (by decide +kernel)) (.group (g := [['-', 'n']]) (.shorts (.last (by simp [Short]) rfl)) .nil)), by decide, by
    intro f v h _
    obtain ⟨rfl, rfl⟩ := Prod.mk.inj (List.mem_singleton.mp h)
    decide⟩

end CmdLine.Sample

end Bab
