import Verif.Props.Vars
import Verif.Proof.RaceRun
/-
C92: the goroutines of parallel blocks access the global variables without data races.
C93: the user is asked one question at a time, and none while a parallel block runs.
-/

namespace Bab
open Spec Spec.Conc

section
variable {c : Cfg} {tasks : TaskMap} {gvars : GoMap Str} {main : Str} {s : State}

/-- C92. If no item of a parallel block may run a task that prompts without variables of its own while another item may
run a task, no write of the global variables ever races with another access. -/
theorem C92_no_data_race_partial (h : Reach (start c tasks gvars main) s)
    (hap : Apart tasks main (Writes c.platform tasks) (UsesVars tasks)) : ¬ DataRace s.prog := by
  rintro ⟨a, b, ht, ha, hb⟩
  obtain ⟨K, hc⟩ := Race.calm_run (s := False) Race.watch_writes Race.watch_accesses
    (fun items hbl i j x y hij => hap items hbl i j x y (hij.elim id False.elim)) h
  exact Race.calm_together hc ht ha hb

/-- C92. In particular there are no data races if every task with prompts has a `vars` block. -/
theorem C92_own_variables (h : Reach (start c tasks gvars main) s)
    (hv : ∀ n T p, tasks.get? n = some T → .prompt p ∈ T.run → T.vars ≠ none) : ¬ DataRace s.prog := by
  refine C92_no_data_race_partial h ?_
  rintro items - i j a b - - - ⟨t, x, -, -, -, T, p, hT, hn, hp, -⟩
  exact absurd hn (hv x T p hT hp)

/-- C93. If at most one item of each parallel block may run a task with a prompt, the user is never asked two questions
at the same time. -/
theorem C93_one_question_partial (h : Reach (start c tasks gvars main) s)
    (hap : Apart tasks main (Asks c.platform tasks) (Asks c.platform tasks)) {l l' : Loc} {p p' : PromptRun} :
    ¬ Together s.prog (.prompt l p) (.prompt l' p') := by
  intro ht
  obtain ⟨K, hc⟩ := Race.calm_run (s := False) Race.watch_questions Race.watch_questions
    (fun items hbl i j x y hij => hap items hbl i j x y (hij.elim id False.elim)) h
  exact Race.calm_together hc ht ⟨l, p, rfl⟩ ⟨l', p', rfl⟩

/-- C93. If no item of a parallel block may run a task with a prompt, the user is never asked while a block runs. -/
theorem C93_no_question_in_block_partial (h : Reach (start c tasks gvars main) s)
    (hno : ∀ items, BlockOf tasks main items → ∀ item ∈ items, ¬ May tasks items (Asks c.platform tasks) item) {l : Loc} {p : PromptRun} :
    ¬ Within s.prog (.prompt l p) := by
  intro ht
  obtain ⟨K, hc⟩ := Race.calm_run (s := True) Race.watch_questions Race.watch_questions
    (fun items hbl i j x y _ hx _ hm => absurd hm (hno items hbl x (List.mem_of_getElem? hx))) h
  exact Race.calm_within hc ht ⟨l, p, rfl⟩

end

/-! ## executions -/

/-- whether a goroutine can perform such an action -/
def Sample.nextIs (q : Act → Bool) : Prog → Bool
  | .ret _ => false
  | .act a _ => q a
  | .par _ _ _ _ n st ps _ => (List.finRange n).any fun i => decide (st.tag i = .running) && Sample.nextIs q (ps i)

theorem Sample.nextIs_sound {q : Act → Bool} {p : Prog} (h : Sample.nextIs q p = true) : ∃ a, q a = true ∧ Next p a := by
  induction p with
  | ret r => cases h
  | act a k _ => exact ⟨a, h, .here⟩
  | par lim ctx t it n st ps k ih _ =>
    simp only [Sample.nextIs, List.any_eq_true, Bool.and_eq_true, decide_eq_true_eq] at h
    obtain ⟨i, -, h1, h2⟩ := h
    obtain ⟨a, h3, h4⟩ := ih i h2
    exact ⟨a, h3, .sub i h1 h4⟩

/-- whether items `i` and `j` of the running block can perform such actions -/
def Sample.bothAre (q q' : Act → Bool) (i j : Nat) : Prog → Bool
  | .par _ _ _ _ n st ps _ =>
    if h : i < n ∧ j < n then
      decide (st.tag ⟨i, h.1⟩ = .running) && decide (st.tag ⟨j, h.2⟩ = .running) && Sample.nextIs q (ps ⟨i, h.1⟩) && Sample.nextIs q' (ps ⟨j, h.2⟩)
    else false
  | _ => false

theorem Sample.bothAre_sound {q q' : Act → Bool} {i j : Nat} (hij : i ≠ j) {p : Prog} (h : Sample.bothAre q q' i j p = true) :
    ∃ a b, q a = true ∧ q' b = true ∧ Together p a b := by
  cases p with
  | ret r => cases h
  | act a k => cases h
  | par lim ctx t it n st ps k =>
    by_cases hn : i < n ∧ j < n
    · rw [Sample.bothAre, dif_pos hn] at h
      simp only [Bool.and_eq_true, decide_eq_true_eq] at h
      obtain ⟨⟨⟨h1, h2⟩, h3⟩, h4⟩ := h
      obtain ⟨a, ha, ha'⟩ := Sample.nextIs_sound h3
      obtain ⟨b, hb, hb'⟩ := Sample.nextIs_sound h4
      exact ⟨a, b, ha, hb, .here _ _ (fun e => hij (congrArg Fin.val e)) h1 h2 ha' hb'⟩
    · rw [Sample.bothAre, dif_neg hn] at h
      cases h

def Sample.isWrite : Act → Bool
  | .setGlobal _ _ => true
  | _ => false

def Sample.isQuestion : Act → Bool
  | .prompt _ _ => true
  | _ => false

/-- two items of a block ask for a variable each; the tasks have a `vars` block or not -/
def Sample.askBoth (vars : Option (GoMap Str)) : TaskMap :=
  [(Sample.s "all", { name := Sample.s "all", run := [Sample.par [Sample.call "a", Sample.call "b"]] }),
   (Sample.s "a", { name := Sample.s "a", vars := vars, run := [Sample.ask "x"] }),
   (Sample.s "b", { name := Sample.s "b", vars := vars, run := [Sample.ask "y"] })]

/-- each item has made `k` steps -/
def Sample.askBothRun (vars : Option (GoMap Str)) (k : Nat) : State :=
  Exec.drive [.auto 8, .rep (.sub 0 .go) k, .rep (.sub 1 .go) k] (start {} (Sample.askBoth vars) [] (Sample.s "all"))

/-- C92 fails: two items of a parallel block write the global variables at the same time. -/
theorem C92_data_race : ∃ (tasks : TaskMap) (main : Str) (s : State), Reach (start {} tasks [] main) s ∧ DataRace s.prog := by
  refine ⟨Sample.askBoth none, Sample.s "all", Sample.askBothRun none 11, Exec.reach _ _, ?_⟩
  obtain ⟨a, b, ha, hb, h⟩ := Sample.bothAre_sound (q := Sample.isWrite) (q' := Sample.isWrite) (i := 0) (j := 1) (by decide)
    (show Sample.bothAre _ _ 0 1 (Sample.askBothRun none 11).prog = true by decide +kernel)
  have hw : ∀ a, Sample.isWrite a = true → IsWrite a := by
    intro a h
    cases a with
    | setGlobal k v => exact ⟨k, v, rfl⟩
    | _ => cases h
  exact ⟨a, b, h, hw a ha, Or.inr (hw b hb)⟩

/-- C93 fails: the user is asked two questions at the same time. -/
theorem C93_two_questions : ∃ (tasks : TaskMap) (main : Str) (s : State) (l l' : Loc) (p p' : PromptRun),
    Reach (start {} tasks [] main) s ∧ Together s.prog (.prompt l p) (.prompt l' p') := by
  obtain ⟨a, b, ha, hb, h⟩ := Sample.bothAre_sound (q := Sample.isQuestion) (q' := Sample.isQuestion) (i := 0) (j := 1) (by decide)
    (show Sample.bothAre _ _ 0 1 (Sample.askBothRun (some []) 9).prog = true by decide +kernel)
  cases a with
  | prompt l p =>
    cases b with
    | prompt l' p' => exact ⟨Sample.askBoth (some []), Sample.s "all", Sample.askBothRun (some []) 9, l, l', p, p', Exec.reach _ _, h⟩
    | _ => cases hb
  | _ => cases ha

/-- both items of a block depend on a task that asks; then `rest` -/
def Sample.askFirst (rest : List RunItem) : TaskMap :=
  [(Sample.s "all", { name := Sample.s "all", run := Sample.par [Sample.call "a", Sample.call "b"] :: rest }),
   (Sample.s "a", { name := Sample.s "a", deps := [Sample.s "conf"], run := [Sample.cmd "x"] }),
   (Sample.s "b", { name := Sample.s "b", deps := [Sample.s "conf"], run := [Sample.cmd "y"] }),
   (Sample.s "conf", { name := Sample.s "conf", run := [Sample.ask "v"] }),
   (Sample.s "more", { name := Sample.s "more", run := [Sample.ask "w"] })]

theorem Sample.askFirst_prior {rest : List RunItem} :
    Prior (Sample.askFirst rest) [Sample.call "a", Sample.call "b"] (Sample.s "conf") :=
  ⟨{ task := Sample.s "a" }, _, List.mem_cons_self, rfl, List.mem_cons_self⟩

/-- the blocks of the sample -/
theorem Sample.askFirst_block {rest : List RunItem} {main : Str} {items : List RunItem} (h : BlockOf (Sample.askFirst rest) main items) :
    items = [Sample.call "a", Sample.call "b"] ∨ ∃ labels mode lim color s o pl w ln, .parallel items labels mode lim color s o pl w ln ∈ rest := by
  obtain ⟨n, T, labels, mode, lim, color, s, o, pl, w, ln, -, hT, hp⟩ := h
  have := GoMap.mem_of_get? hT
  simp only [Sample.askFirst, List.mem_cons, Prod.mk.injEq, List.not_mem_nil, or_false] at this
  rcases this with ⟨-, rfl⟩ | ⟨-, rfl⟩ | ⟨-, rfl⟩ | ⟨-, rfl⟩ | ⟨-, rfl⟩
  · rcases List.mem_cons.mp hp with h | h
    · simp only [Sample.par, RunItem.parallel.injEq] at h
      exact Or.inl h.1
    · exact Or.inr ⟨labels, mode, lim, color, s, o, pl, w, ln, h⟩
  all_goals simp [Sample.cmd, Sample.ask] at hp

/-- what the items of the first block lead to while it runs -/
theorem Sample.askFirst_leads {rest : List RunItem} {t : TaskRun} (ht : RunItem.task t ∈ [Sample.call "a", Sample.call "b"]) {x : Str}
    (h : Leads (Sample.askFirst rest) (Prior (Sample.askFirst rest) [Sample.call "a", Sample.call "b"]) t.task x)
    (hn : ¬ Prior (Sample.askFirst rest) [Sample.call "a", Sample.call "b"] x) : x = Sample.s "a" ∨ x = Sample.s "b" := by
  induction h with
  | self =>
    simp only [Sample.call, List.mem_cons, RunItem.task.injEq, List.not_mem_nil, or_false] at ht
    rcases ht with rfl | rfl
    · exact Or.inl rfl
    · exact Or.inr rfl
  | step _ hb hu ih =>
    exfalso
    have key : ∀ n T y, (Sample.askFirst rest).get? n = some T → T.deps = [Sample.s "conf"] → (∃ z, T.run = [Sample.cmd z]) →
        MayRun (Sample.askFirst rest) n y → y = Sample.s "conf" := by
      rintro n T y hT hd ⟨z, hr⟩ (⟨T', hT', h⟩ | ⟨T', items, labels, mode, lim, color, s, o, pl, w, ln, hT', h, -⟩)
      · rw [hT] at hT'; cases hT'
        rcases h with h | h
        · rw [hd] at h; exact List.mem_singleton.mp h
        · rw [hr] at h
          cases h with
          | later h => cases h
      · rw [hT] at hT'; cases hT'
        rw [hr] at h
        simp [Sample.cmd] at h
    rcases ih hb with rfl | rfl
    · exact hn (key _ _ _ (show (Sample.askFirst rest).get? (Sample.s "a") = some _ from rfl) rfl ⟨_, rfl⟩ hu ▸ Sample.askFirst_prior)
    · exact hn (key _ _ _ (show (Sample.askFirst rest).get? (Sample.s "b") = some _ from rfl) rfl ⟨_, rfl⟩ hu ▸ Sample.askFirst_prior)

/-- the items of the first block ask nothing while it runs -/
theorem Sample.askFirst_quiet {rest : List RunItem} {platform : Str} {item : RunItem} (hi : item ∈ [Sample.call "a", Sample.call "b"]) :
    ¬ May (Sample.askFirst rest) [Sample.call "a", Sample.call "b"] (Asks platform (Sample.askFirst rest)) item := by
  rintro ⟨t, x, rfl, hl, hn, T, p, hT, hp, -⟩
  rcases Sample.askFirst_leads hi hl hn with rfl | rfl
  · rw [show (Sample.askFirst rest).get? (Sample.s "a") = some _ from rfl] at hT
    cases hT; simp [Sample.cmd] at hp
  · rw [show (Sample.askFirst rest).get? (Sample.s "b") = some _ from rfl] at hT
    cases hT; simp [Sample.cmd] at hp

/-- the second block asks in one item -/
theorem Sample.askFirst_apart {platform : Str} {P : Str → Prop} :
    Apart (Sample.askFirst [Sample.par [Sample.call "more", Sample.cmd "z"]]) (Sample.s "all")
      (Asks platform (Sample.askFirst [Sample.par [Sample.call "more", Sample.cmd "z"]])) P := by
  intro items hb i j a b hij hi hj ha
  rcases Sample.askFirst_block hb with rfl | ⟨labels, mode, lim, color, s, o, pl, w, ln, h⟩
  · exact absurd ha (Sample.askFirst_quiet (List.mem_of_getElem? hi))
  · rw [List.mem_singleton, Sample.par, RunItem.parallel.injEq] at h
    obtain ⟨rfl, -⟩ := h
    rintro ⟨u, _, rfl, -⟩
    obtain ⟨t, _, rfl, -⟩ := ha
    have hone : ∀ (k : Nat) (t : TaskRun), [Sample.call "more", Sample.cmd "z"][k]? = some (.task t) → k = 0 := by
      intro k t hk
      match k with
      | 0 => rfl
      | 1 => cases hk
      | k + 2 => cases hk
    exact hij ((hone i t hi).trans (hone j u hj).symm)

example : Apart (Sample.askFirst [Sample.par [Sample.call "more", Sample.cmd "z"]]) (Sample.s "all")
    (Writes [] (Sample.askFirst [Sample.par [Sample.call "more", Sample.cmd "z"]]))
    (UsesVars (Sample.askFirst [Sample.par [Sample.call "more", Sample.cmd "z"]])) := by
  rintro items hb i j a b hij hi hj ⟨t, x, h1, h2, h3, T, p, h4, -, h5, h6⟩
  exact Sample.askFirst_apart items hb i j a b hij hi hj ⟨t, x, h1, h2, h3, T, p, h4, h5, h6⟩

example : ∀ n T p, (Sample.askBoth (some [])).get? n = some T → .prompt p ∈ T.run → T.vars ≠ none := by
  intro n T p hT hp
  have := GoMap.mem_of_get? hT
  simp only [Sample.askBoth, List.mem_cons, Prod.mk.injEq, List.not_mem_nil, or_false] at this
  rcases this with ⟨-, rfl⟩ | ⟨-, rfl⟩ | ⟨-, rfl⟩
  · simp [Sample.par] at hp
  · simp
  · simp

example : ∀ items, BlockOf (Sample.askFirst []) (Sample.s "all") items → ∀ item ∈ items,
    ¬ May (Sample.askFirst []) items (Asks [] (Sample.askFirst [])) item := by
  intro items hb item hi
  rcases Sample.askFirst_block hb with rfl | ⟨labels, mode, lim, color, s, o, pl, w, ln, h⟩
  · exact Sample.askFirst_quiet hi
  · cases h

/-- in the second block of the sample, a question is asked while a command is about to start -/
example : Sample.bothAre Sample.isQuestion (fun a => match a with | .start _ _ _ => true | _ => false) 0 1
    (Exec.drive [.auto 71, .rep (.sub 0 .go) 12, .rep (.sub 1 .go) 4]
      (start {} (Sample.askFirst [Sample.par [Sample.call "more", Sample.cmd "z"]]) [] (Sample.s "all"))).prog = true := by decide +kernel

end Bab
