import Verif.Proof.Due
import Verif.Props.Outcome
import Verif.Props.Order
import Verif.Props.Command
/-
C78: without prompts it is determined what a run does, whatever happens in parallel.
-/

namespace Bab
open Spec

section
variable {c : Cfg} {tasks : TaskMap} {gvars : GoMap Str} {main : Str} {s s' : State}

namespace Due

/-- an item that is due stands in the Babfile, and its variables are those of the task -/
theorem item_facts {loc : Loc} {it : RunItem} {m : GoMap Str} (h : Spec.Due c tasks gvars main (.item loc it m)) :
    itemAt tasks loc = some it ∧ ∃ T, tasks.get? loc.task = some T ∧ resolveVars T.vars gvars c.env = .ok m := by
  have top : ∀ {n i it m}, Spec.Due c tasks gvars main (.item ⟨n, i, none⟩ it m) →
      itemAt tasks ⟨n, i, none⟩ = some it ∧ ∃ T, tasks.get? n = some T ∧ resolveVars T.vars gvars c.env = .ok m := by
    intro n i it m h
    cases h with
    | item _ hT _ hv hi _ _ => exact ⟨by simp [itemAt, hT, hi], _, hT, hv⟩
  cases h with
  | item h1 hT h2 hv hi h3 h4 => exact top (.item h1 hT h2 hv hi h3 h4)
  | sub h hj =>
    obtain ⟨h1, T, hT, hv⟩ := top h
    refine ⟨?_, T, hT, hv⟩
    simp only [itemAt, hT] at h1
    simp [itemAt, hT, h1, hj]

/-- the item and its variables are determined by the place -/
theorem item_unique {loc : Loc} {it it' : RunItem} {m m' : GoMap Str} (h : Spec.Due c tasks gvars main (.item loc it m))
    (h' : Spec.Due c tasks gvars main (.item loc it' m')) : it = it' ∧ m = m' := by
  obtain ⟨h1, T, hT, hv⟩ := item_facts h
  obtain ⟨h1', T', hT', hv'⟩ := item_facts h'
  rw [h1] at h1'; cases h1'
  rw [hT] at hT'; cases hT'
  rw [hv] at hv'; cases hv'
  exact ⟨rfl, rfl⟩

/-- what has become of a thing that is due, in the end -/
def Had (tasks : TaskMap) (tr : List Ev) : Thing → Prop
  | .task n => .done n ∈ tr
  | .item ⟨n, i, none⟩ it _ => ItemDone (· ∈ tr) false n i it
  | .item ⟨n, i, some j⟩ it _ => LeafDone (· ∈ tr) false ⟨n, i, some j⟩ it ∧ AheadDone tasks (· ∈ tr) n i

theorem had (hd : c.dry = false) (hask : Unasked c tasks gvars main) (hr : Reach (start c tasks gvars main) s) (hp : s.prog = .ret none)
    (hc : ∀ id, .cancel id ∉ s.sh.trace) {x : Thing} (h : Spec.Due c tasks gvars main x) : Had tasks s.sh.trace x := by
  have hev := events hd hask hr
  have done : ∀ {n T}, .done n ∈ s.sh.trace → tasks.get? n = some T → CondTrue c T.cond gvars →
      (∀ d ∈ T.deps, .done d ∈ s.sh.trace) ∧
      ∀ i item, T.run[i]? = some item → (∃ why, .itemSkip n i why ∈ s.sh.trace) ∨ ItemDone (· ∈ s.sh.trace) false n i item := by
    intro n T hn hT hct
    obtain ⟨a, b, ht⟩ := List.append_of_mem hn
    have hin : ∀ e ∈ a, e ∈ s.sh.trace := by intro e he; rw [ht]; simp [he]
    obtain ⟨T', hT', hdone⟩ := Safe.event_ok hr ht
    rw [hT] at hT'; cases hT'
    rw [hd] at hdone
    rcases Safe.taskDone_mono hin hdone with ⟨g, hg⟩ | h
    · have hgg : g = gvars := hev _ hg
      obtain ⟨T', hT', _, h2, _⟩ := taskSkip_reason hr hg
      rw [hT] at hT'; cases hT'
      rw [hgg] at h2
      rw [CondTrue, h2] at hct; cases hct
    · exact h
  induction h with
  | main => exact C16_success_means_done hr hp
  | dep _ hT hct hd ih => exact (done ih hT hct).1 _ hd
  | @item n T m i it _ hT hct hv hi hpl hit ih =>
    rcases (done ih hT hct).2 i it hi with ⟨why, hw⟩ | h
    · obtain ⟨T', it', hT', hi', hwhy⟩ := skip_reason hr hw
      rw [hT] at hT'; cases hT'
      rw [hi] at hi'; cases hi'
      rcases hwhy with ⟨_, h⟩ | ⟨m', rfl, _, _, h⟩
      · rw [hpl] at h; cases h
      · obtain ⟨T', hT', hv'⟩ := hev _ hw
        rw [hT] at hT'; cases hT'
        rw [hv] at hv'; cases hv'
        rw [CondTrue, h] at hit; cases hit
    · exact h
  | @sub n i items labels mode lim color bs bo pl w ln m j it _ hj ih =>
    have ih : ItemDone (· ∈ s.sh.trace) false n i (.parallel items labels mode lim color bs bo pl w ln) := ih
    simp only [ItemDone, Bool.false_eq_true, if_false] at ih
    obtain ⟨⟨m', hb⟩, h⟩ := ih
    refine ⟨?_, ?_⟩
    · rcases h j it hj with h | h
      · exact h
      · obtain ⟨a, b, ht⟩ := List.append_of_mem h
        obtain ⟨id, hid⟩ := Safe.event_ok hr ht
        exact absurd (by rw [ht]; simp [hid]) (hc id)
    · obtain ⟨a, b, ht⟩ := List.append_of_mem hb
      obtain ⟨_, hah⟩ := Safe.event_ok hr ht
      intro items labels mode lim color bs bo pl w ln hi t T d h1 h2 h3
      rw [ht]
      exact List.mem_append_left _ (hah items labels mode lim color bs bo pl w ln hi t T d h1 h2 h3)
  | @call loc t m _ ih =>
    obtain ⟨n, i, sub⟩ := loc
    cases sub with
    | none => exact ih
    | some j => exact ih.1
  | @ahead n i j t m T d hdue hT hd ih =>
    obtain ⟨hat, T0, hT0, _⟩ := item_facts hdue
    have hblock : ∃ items labels mode lim color bs bo pl w ln,
        itemAt tasks ⟨n, i, none⟩ = some (.parallel items labels mode lim color bs bo pl w ln) ∧ .task t ∈ items := by
      simp only [itemAt, hT0] at hat ⊢
      split at hat
      · rename_i items labels mode lim color bs bo pl w ln h
        exact ⟨items, labels, mode, lim, color, bs, bo, pl, w, ln, h, List.mem_of_getElem? hat⟩
      · cases hat
    obtain ⟨items, labels, mode, lim, color, bs, bo, pl, w, ln, hb, hm⟩ := hblock
    exact ih.2 items labels mode lim color bs bo pl w ln hb t T d hm hT hd

/-- an entry is an action at a place -/
theorem entry_acts (x : PlanEntry) : ∃ loc, ∀ e, entryOf e = some x → acts loc e = true := by
  cases x with
  | cmd loc text | log loc text level | task loc name =>
    refine ⟨loc, fun e he => ?_⟩
    cases e <;> cases he <;> simp [acts]

theorem entries_nodup {tr : List Ev} (h : ∀ loc, tr.countP (acts loc) ≤ 1) : (entries tr).Nodup := by
  induction tr with
  | nil => exact List.nodup_nil
  | cons e tr ih =>
    have ih := ih fun loc => by
      have := h loc
      rw [List.countP_cons] at this
      omega
    unfold entries at ih ⊢
    cases he : entryOf e with
    | none => rwa [List.filterMap_cons_none he]
    | some x =>
      rw [List.filterMap_cons_some he, List.nodup_cons]
      refine ⟨fun hx => ?_, ih⟩
      obtain ⟨e', he', hx'⟩ := List.mem_filterMap.mp hx
      obtain ⟨loc, h1⟩ := entry_acts x
      have h2 := h1 e' hx'
      have h1 := h1 e he
      have hpos : 0 < tr.countP (acts loc) := List.countP_pos_iff.mpr ⟨e', he', h2⟩
      have := h loc
      rw [List.countP_cons_of_pos h1] at this
      omega

end Due

/-- C78. If no task that is due asks for anything, then a run does only what is due, at any time and whatever the schedule: every command that
is started and every message is due, with this text. -/
theorem C78_only (hd : c.dry = false) (hask : Unasked c tasks gvars main) (hr : Reach (start c tasks gvars main) s) {x : PlanEntry}
    (hx : x ∈ entries s.sh.trace) : DueEntry c tasks gvars main x := by
  obtain ⟨e, he, hx⟩ := List.mem_filterMap.mp hx
  have := Due.events hd hask hr e he
  cases e <;> cases hx
  · obtain ⟨T, v, m, tenv, text, env, dir, fr, hT, hdue, _, hpr, rfl⟩ := this
    exact .cmd hdue (prepare_inv hpr).1
  · exact this
  · exact this.elim
  · exact this.elim
  · exact this.elim

/-- C78. And a run that ends with success and was not interrupted has done all that is due. -/
theorem C78_all (hd : c.dry = false) (hask : Unasked c tasks gvars main) (hr : Reach (start c tasks gvars main) s) (hp : s.prog = .ret none)
    (hc : ∀ id, .cancel id ∉ s.sh.trace) {x : PlanEntry} (hx : DueEntry c tasks gvars main x) : x ∈ entries s.sh.trace := by
  have hev := Due.events hd hask hr
  cases hx with
  | @cmd loc v m text hdue htext =>
    have hend : .procEnd loc none ∈ s.sh.trace := by
      have := Due.had hd hask hr hp hc hdue
      obtain ⟨n, i, sub⟩ := loc
      cases sub with
      | none => exact this
      | some j => exact this.1
    obtain ⟨a, b, ht⟩ := List.append_of_mem hend
    obtain ⟨_, spec, hspec⟩ := Safe.event_ok hr ht
    have hspec : .procStart loc spec ∈ s.sh.trace := by rw [ht]; exact List.mem_append_left _ hspec
    refine List.mem_filterMap.mpr ⟨_, hspec, ?_⟩
    obtain ⟨T, v', m', tenv, text', env, dir, fr, hT, hdue', _, hpr, rfl⟩ := hev _ hspec
    obtain ⟨h1, rfl⟩ := Due.item_unique hdue hdue'
    cases h1
    have := (prepare_inv hpr).1
    rw [htext] at this; cases this
    rfl
  | @log loc l m text hdue htext =>
    have hend : ∃ t o, .logged loc t l.level o ∈ s.sh.trace := by
      have := Due.had hd hask hr hp hc hdue
      obtain ⟨n, i, sub⟩ := loc
      cases sub with
      | none => exact this
      | some j => exact this.1
    obtain ⟨t, o, hl⟩ := hend
    refine List.mem_filterMap.mpr ⟨_, hl, ?_⟩
    have := hev _ hl
    generalize hlev : l.level = lev at this ⊢
    cases this with
    | @log _ l' m' _ hdue' htext' =>
      obtain ⟨h1, rfl⟩ := Due.item_unique hdue hdue'
      cases h1
      rw [htext] at htext'; cases htext'
      rfl

/-- C78. So two runs that end with success and were not interrupted have done the same, apart from the order; each command and message once. -/
theorem C78_same (hd : c.dry = false) (hask : Unasked c tasks gvars main) (hr : Reach (start c tasks gvars main) s) (hp : s.prog = .ret none)
    (hc : ∀ id, .cancel id ∉ s.sh.trace) (hr' : Reach (start c tasks gvars main) s') (hp' : s'.prog = .ret none)
    (hc' : ∀ id, .cancel id ∉ s'.sh.trace) : (entries s.sh.trace).Perm (entries s'.sh.trace) := by
  refine (List.perm_ext_iff_of_nodup (Due.entries_nodup fun loc => acts_once hr loc) (Due.entries_nodup fun loc => acts_once hr' loc)).mpr fun x => ?_
  exact ⟨fun h => C78_all hd hask hr' hp' hc' (C78_only hd hask hr h), fun h => C78_all hd hask hr hp hc (C78_only hd hask hr' h)⟩

/-- C78. A run that failed or was interrupted has done a part of what one that ended with success has done. -/
theorem C78_part (hd : c.dry = false) (hask : Unasked c tasks gvars main) (hr : Reach (start c tasks gvars main) s)
    (hr' : Reach (start c tasks gvars main) s') (hp' : s'.prog = .ret none) (hc' : ∀ id, .cancel id ∉ s'.sh.trace) :
    (entries s.sh.trace).Subperm (entries s'.sh.trace) :=
  (Due.entries_nodup fun loc => acts_once hr loc).subperm fun _ h => C78_all hd hask hr' hp' hc' (C78_only hd hask hr h)

/-- C78. The process that is started for a command is the same in all runs: the shell, the text, the directory, and the environment apart
from the names that control colours. -/
theorem C78_process (hd : c.dry = false) (hask : Unasked c tasks gvars main) (hr : Reach (start c tasks gvars main) s)
    (hr' : Reach (start c tasks gvars main) s') {loc : Loc} {spec spec' : ProcSpec} (h : .procStart loc spec ∈ s.sh.trace)
    (h' : .procStart loc spec' ∈ s'.sh.trace) :
    spec.shell = spec'.shell ∧ spec.arg = spec'.arg ∧ spec.cmd = spec'.cmd ∧ spec.dir = spec'.dir ∧
    ∀ k, k ∉ colourNames → procEnv c spec k = procEnv c spec' k := by
  obtain ⟨T, v, m, tenv, text, env, dir, fr, hT, hdue, he, hpr, rfl⟩ := Due.events hd hask hr _ h
  obtain ⟨T', v', m', tenv', text', env', dir', fr', hT', hdue', he', hpr', rfl⟩ := Due.events hd hask hr' _ h'
  obtain ⟨h1, rfl⟩ := Due.item_unique hdue hdue'
  cases h1
  rw [hT] at hT'; cases hT'
  rw [he] at he'; cases he'
  rw [hpr] at hpr'; cases hpr'
  refine ⟨rfl, rfl, rfl, rfl, fun k hk => ?_⟩
  have we : env.WF := interpolateEnv_WF (prepare_inv hpr).2.1 (WF_mergeEnvMaps _)
  rw [procEnv_eq we, procEnv_eq we, colourEnv_other hk, colourEnv_other hk]

/-- C78. Before the items of a parallel block start, the dependencies of all tasks that the block calls are done. -/
theorem C78_ahead (hr : Reach (start c tasks gvars main) s) {a b : List Ev} {n : Str} {i : Nat} {m : GoMap Str}
    (ht : s.sh.trace = a ++ .parBegin n i m :: b) : AheadDone tasks (· ∈ a) n i :=
  (Safe.event_ok hr ht).2

end

namespace Sample

/-- another invocation of `all`: in the block, `y` comes first -/
def goodToo : State := Exec.drive [.auto 30, .rep (.sub 1 .go) 60, .auto 400] (start {} build [] (s "all"))

theorem build_unasked : Unasked {} build [] (s "all") := by
  intro n T p _ hT hp
  have := GoMap.mem_of_get? hT
  simp only [build, List.mem_cons, Prod.mk.injEq, List.not_mem_nil, or_false] at this
  rcases this with ⟨-, rfl⟩ | ⟨-, rfl⟩ | ⟨-, rfl⟩ <;> simp [cmd, call, par] at hp

end Sample

/-- two runs that meet the hypotheses of `C78_same`, with different orders -/
example : Exec.result Sample.good = some none ∧ Exec.result Sample.goodToo = some none ∧
    Reach (start {} Sample.build [] (Sample.s "all")) Sample.goodToo ∧ Unasked {} Sample.build [] (Sample.s "all") ∧
    (entries Sample.good.sh.trace).drop 2 = [.cmd ⟨Sample.s "x", 0, none⟩ (Sample.s "cc x"), .cmd ⟨Sample.s "all", 1, some 1⟩ (Sample.s "y"), .log ⟨Sample.s "all", 3, none⟩ (Sample.s "ok") []] ∧
    (entries Sample.goodToo.sh.trace).drop 2 = [.cmd ⟨Sample.s "all", 1, some 1⟩ (Sample.s "y"), .cmd ⟨Sample.s "x", 0, none⟩ (Sample.s "cc x"), .log ⟨Sample.s "all", 3, none⟩ (Sample.s "ok") []] ∧
    ∀ e ∈ Sample.good.sh.trace ++ Sample.goodToo.sh.trace, (match e with | .cancel _ => false | _ => true) = true :=
  ⟨by decide +kernel, by decide +kernel, Exec.reach _ _, Sample.build_unasked, by decide +kernel, by decide +kernel, by decide +kernel⟩

/-- the command of a task that an item of the block calls is due -/
example : DueEntry {} Sample.build [] (Sample.s "all") (.cmd ⟨Sample.s "x", 0, none⟩ (Sample.s "cc x")) :=
  C78_only rfl Sample.build_unasked Sample.good_reach (by decide +kernel)

/-- a run in which `y` fails has done a part -/
example : (entries Sample.bad.sh.trace).length = 3 ∧ (entries Sample.good.sh.trace).length = 5 := by decide +kernel

end Bab
