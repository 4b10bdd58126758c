import Verif.Proof.Layer
import Verif.Props.Cli
import Verif.Props.Confine
import Verif.Props.Findings
/-
Property C67: a task does the same when its file is included as when the file is used directly.
-/

namespace Bab
open Spec Cli

/-! ### Variables -/

/-- **C67** Variables of a file and variables of a task may be resolved together, as is done when the file is included, or one
after the other, as is done when it is used directly: the one succeeds exactly if the other does, and the values are the same.
This needs that no variable of the file is defined by means of a variable of the task. -/
theorem C67_variables {file task both fileVals : GoMap Str} {env : Str → Option Str}
    (hb : ∀ k, both.get? k = (task.get? k).or (file.get? k)) (hf : resolveVars (some file) [] env = .ok fileVals)
    (hfree : ∀ k raw x, file.get? k = some raw → task.get? k = none → Mentions raw x → ¬ IsEnv x → task.get? x = none) :
    (∃ m m', resolveVars (some task) fileVals env = .ok m ∧ resolveVars (some both) [] env = .ok m' ∧ MapEq m m') ∨
    ∃ e e', resolveVars (some task) fileVals env = .error e ∧ resolveVars (some both) [] env = .error e' := by
  have hok := layer_ok hb hf hfree
  cases hr : resolveVars (some both) [] env with
  | ok m' =>
    obtain ⟨m, hm⟩ := hok.mpr ⟨m', hr⟩
    exact Or.inl ⟨m, m', hm, rfl, layer_eq hb hf hfree hm hr⟩
  | error e' =>
    cases hd : resolveVars (some task) fileVals env with
    | ok m =>
      obtain ⟨m', hm'⟩ := hok.mp ⟨m, hd⟩
      rw [hr] at hm'; cases hm'
    | error e => exact Or.inr ⟨e, e', rfl, rfl⟩

/-! ### The tasks -/

/-- the tasks of a file under their names with namespace -/
def renamed (ns : Str) (b : Schema) (t : TaskMap) : TaskMap := t.map fun q => (nsName ns q.1, includedTask ns (settings b) q.1 q.2)

theorem renamed_get (ns : Str) (b : Schema) (t : TaskMap) (n : Str) :
    (renamed ns b t).get? (nsName ns n) = (t.get? n).map (includedTask ns (settings b) n) := by
  induction t with
  | nil => rfl
  | cons q t ih =>
    obtain ⟨k, T⟩ := q
    show GoMap.get? ((nsName ns k, includedTask ns (settings b) k T) :: renamed ns b t) (nsName ns n) = _
    rw [GoMap.get?, GoMap.get?]
    by_cases h : k = n
    · subst h; simp
    · rw [if_neg h, if_neg (fun e => h (nsName_inj e))]
      exact ih

theorem callsIn_prefix {ns d : Str} {items : List RunItem} (h : CallsIn d (prefixTaskRuns ns items)) :
    ∃ x, d = nsName ns x ∧ CallsIn x items := by
  rw [prefixTaskRuns_eq] at h
  obtain ⟨x, h1, h2⟩ := (callsIn_renames _ _ _).mp h
  exact ⟨x, h1, (callsIn_bares x items).mp h2⟩

/-- what a task of the file needs is there under its name with namespace -/
theorem renamed_same {ns : Str} {b : Schema} {t t' : TaskMap} (hcl : ∀ a x, Refers t a x → ∃ T, t.get? x = some T)
    (ht : ∀ n T, t.get? n = some T → t'.get? (nsName ns n) = some (includedTask ns (settings b) n T)) {n : Str} {T : Task}
    (hn : t.get? n = some T) : SameFor (nsName ns n) (renamed ns b t) t' := by
  have key : ∀ a x, Reaches (renamed ns b t) a x → ∀ n T, a = nsName ns n → t.get? n = some T →
      ∃ m T', x = nsName ns m ∧ t.get? m = some T' := by
    intro a x h
    have one : ∀ {a x}, Refers (renamed ns b t) a x → ∀ n T, a = nsName ns n → t.get? n = some T →
        ∃ m T', x = nsName ns m ∧ t.get? m = some T' := by
      rintro a x ⟨T', hT', hd⟩ n T rfl hT
      rw [renamed_get, hT] at hT'
      cases hT'
      have : ∃ y, x = nsName ns y ∧ (y ∈ T.deps ∨ CallsIn y T.run) := by
        rcases hd with hd | hd
        · obtain ⟨y, hy, rfl⟩ := List.mem_map.mp hd
          exact ⟨y, rfl, Or.inl hy⟩
        · obtain ⟨y, hy, hc⟩ := callsIn_prefix hd
          exact ⟨y, hy, Or.inr hc⟩
      obtain ⟨y, rfl, hy⟩ := this
      obtain ⟨Ty, hTy⟩ := hcl n y ⟨T, hT, hy⟩
      exact ⟨y, Ty, rfl, hTy⟩
    induction h with
    | one h => exact one h
    | more h _ ih =>
      intro n T hn hT
      obtain ⟨m, Tm, h1, h2⟩ := one h n T hn hT
      exact ih m Tm h1 h2
  intro m hm
  have : ∃ y T', m = nsName ns y ∧ t.get? y = some T' := by
    rcases hm with rfl | hm
    · exact ⟨n, T, rfl, hn⟩
    · exact key _ _ hm n T rfl hn
  obtain ⟨y, T', rfl, hy⟩ := this
  rw [renamed_get, hy, ht _ _ hy]
  rfl

/-- the cause of C67, for task maps and runners -/
theorem transparent {ns : Str} {b : Schema} {t t' : TaskMap} {c c' : Cfg} {G : GoMap Str} (hb : GoMap.WF (b.vars.getD []))
    (hcl : ∀ a x, Refers t a x → ∃ T, t.get? x = some T)
    (ht : ∀ n T, t.get? n = some T → t'.get? (nsName ns n) = some (includedTask ns (settings b) n T))
    (hp : ∀ n T, t.get? n = some T → T.name = n ∧ GoMap.WF (T.vars.getD []) ∧ Portable b T)
    (hc : Ren.CRel c c') (hG : resolveVars b.vars [] c.env = .ok G)
    (g1 : c.globalEnv = b.env) (g2 : c.globalSilent = b.silent) (g3 : c.globalOutput = b.output) (g4 : c.globalDir = b.dir)
    (e1 : c'.globalEnv = []) (e2 : c'.globalSilent = none) (e3 : c'.globalOutput = none) (e4 : c'.globalDir = [])
    {n : Str} {T : Task} (hn : t.get? n = some T) :
    (∀ s, Reach (start c t G n) s → ∃ s', Reach (start c' t' [] (nsName ns n)) s' ∧ Mirrors (nsName ns) s s') ∧
    (∀ s', Reach (start c' t' [] (nsName ns n)) s' → ∃ s, Reach (start c t G n) s ∧
      List.Forall₂ (EvRel (nsName ns)) s.sh.trace s'.sh.trace ∧
      ∀ r', s'.prog = .ret r' → ∃ r, s.prog = .ret r ∧ EndRel (nsName ns) r r') := by
  have hsame := renamed_same hcl ht hn
  have hrel : ∀ n, (t.get? n = none ∧ (renamed ns b t).get? (nsName ns n) = none) ∨
      ∃ T T', t.get? n = some T ∧ (renamed ns b t).get? (nsName ns n) = some T' ∧ Ren.TRel (nsName ns) c c' G [] T T' := by
    intro n
    rw [renamed_get]
    cases h : t.get? n with
    | none => exact Or.inl ⟨rfl, rfl⟩
    | some T =>
      obtain ⟨p1, p2, p3⟩ := hp n T h
      exact Or.inr ⟨T, _, rfl, rfl, included_rel hb p2 p1 p3 hG g1 g2 g3 g4 e1 e2 e3 e4⟩
  have hlen : t.length = (renamed ns b t).length := by simp [renamed]
  constructor
  · intro s hs
    obtain ⟨s1, h1, h2, h3⟩ := Ren.forth hc hrel (fun a b h => nsName_inj h) hlen hs
    obtain ⟨s', h4, h5, h6⟩ := C62_others_irrelevant hsame h1
    refine ⟨s', h4, by rw [h5]; exact h2, ?_⟩
    intro r hr
    obtain ⟨r', hr', he⟩ := h3 r hr
    exact ⟨r', (h6 r').mp hr', he⟩
  · intro s' hs'
    obtain ⟨s1, h4, h5, h6⟩ := C62_others_irrelevant (C62_same_symm hsame) hs'
    obtain ⟨s, h1, h2, h3⟩ := Ren.back hc hrel (fun a b h => nsName_inj h) hlen h4
    refine ⟨s, h1, by rw [← h5]; exact h2, ?_⟩
    intro r' hr'
    exact h3 r' ((h6 r').mp hr')

/-! ### Invocations -/

section
variable {w : World} (hw : FilesWF w.files)
include hw

theorem runTask_tasks {v : Visit} (hv : VisitOK v) {fl : Flags} {x : Str} {c : Cfg} {tasks : TaskMap} {gvars : GoMap Str} {name : Str}
    (h : Cli.runTask w v fl x = .run c tasks gvars name) {p : Str} (hp : Chosen w fl.babfile p) :
    TasksOf w.files p tasks ∧ ∀ a b, Refers tasks a b → ∃ T, tasks.get? b = some T := by
  unfold Cli.runTask at h
  cases hl : loadTasks w v fl.babfile with
  | error e => rw [hl] at h; cases h
  | ok r =>
    rw [hl] at h
    dsimp only at h
    cases hg : placed 0 (resolveVars r.vars [] w.base.env) with
    | error e =>
      rw [hg] at h; cases h
    | ok g =>
      rw [hg] at h
      dsimp only at h
      replace hg := of_placed_ok hg
      cases h
      obtain ⟨p', h1, h2, h3⟩ := loadTasks_ok hw hv hl
      rw [chosen_unique hp h1]
      obtain ⟨hlo, hto, b, hb, hset⟩ := parseFile_ok hw hv.orders _ h3
      exact ⟨hto, ((accepted_iff hlo hto).mp h2).1⟩

/-- **C67** A Babfile without settings of its own includes another file under a namespace. A task of that file, named with the
namespace, then does exactly what it does when that file is used directly, provided that its tasks are `Portable`: whatever can
happen in the one case can happen in the other, event by event and with the same result, up to the names of tasks. This covers
interruptions, failures and every order in which parallel items can proceed. -/
theorem C67_included {v v' : Visit} (hv : VisitOK v) (hv' : VisitOK v') {fl fl' : Flags} (hdry : fl.dryRun = fl'.dryRun)
    {p q ns : Str} (hq : Chosen w fl.babfile q) (hp : Chosen w fl'.babfile p) (hi : Includes w.files p ns q)
    {bp bq : Schema} (hbp : w.files.get? p = some (some bp)) (hbq : w.files.get? q = some (some bq)) (hroot : NoSettings bp)
    {n : Str} (hn : FileHas w.files q n) {c c' : Cfg} {t t' : TaskMap} {G G' : GoMap Str} {m m' : Str}
    (h : Cli.runTask w v fl n = .run c t G m) (h' : Cli.runTask w v' fl' (nsName ns n) = .run c' t' G' m')
    (hport : ∀ a T, t.get? a = some T → Portable bq T) :
    (∀ s, Reach (start c t G m) s → ∃ s', Reach (start c' t' G' m') s' ∧ Mirrors (nsName ns) s s') ∧
    (∀ s', Reach (start c' t' G' m') s' → ∃ s, Reach (start c t G m) s ∧
      List.Forall₂ (EvRel (nsName ns)) s.sh.trace s'.sh.trace ∧
      ∀ r', s'.prog = .ret r' → ∃ r, s.prog = .ret r ∧ EndRel (nsName ns) r r') := by
  obtain ⟨hto, hcl⟩ := runTask_tasks hw hv h hq
  obtain ⟨hto', -⟩ := runTask_tasks hw hv' h' hp
  obtain ⟨q1, b1, f1, f2, f3, f4, f5, f6, f7, f8, -⟩ := (runTask_run hw hv h).file
  obtain ⟨p1, b2, k1, k2, k3, k4, k5, k6, k7, k8, -⟩ := (runTask_run hw hv' h').file
  rw [chosen_unique f1 hq] at *
  rw [chosen_unique k1 hp] at *
  rw [hbq] at f3; cases f3
  rw [hbp] at k3; cases k3
  have hG' : G' = [] := by
    have := resolve_getD k6
    rw [hroot.vars] at this
    have : Except.ok [] = Except.ok G' := this
    cases this; rfl
  have hm := f8 hn
  obtain ⟨T, hT⟩ := (fileHas_iff hto n).mp hn
  have hinc : ∀ a T, t.get? a = some T → t'.get? (nsName ns a) = some (includedTask ns (settings bq) a T) := by
    intro a T ha
    exact (k5 _ _).mpr (.inc hi hbq ((f5 a T).mp ha))
  have hm' : m' = nsName ns n := by
    apply k8
    exact (fileHas_iff hto' _).mpr ⟨_, hinc n T hT⟩
  subst hG' hm hm'
  refine transparent (hw _ _ hbq).2.2.1 hcl hinc (fun a T ha => ⟨makes_name ((f5 a T).mp ha), (hto.maps a T ha).1, hport a T ha⟩)
    ?_ (by rw [f7]; exact f6) (by rw [f7]) (by rw [f7]) (by rw [f7]) (by rw [f7]) (by rw [k7]; exact hroot.env) (by rw [k7]; exact hroot.silent)
    (by rw [k7]; exact hroot.output) (by rw [k7]; exact hroot.dir) hT
  rw [f7, k7]
  exact ⟨hdry.symm, rfl, rfl, rfl, rfl, rfl, rfl⟩

end

/-! ### What is seen outside -/

theorem effect_rel {g : Str → Str} {e e' : Ev} (h : EvRel g e e') : effect e = effect e' := by
  cases h <;> rfl

/-- **C67** In particular the outside world sees the same: the same processes with the same command lines, environments and
directories, the same echoed commands and messages, the same questions, in the same order. -/
theorem C67_effects {g : Str → Str} {s s' : State} (h : Mirrors g s s') :
    s.sh.trace.filterMap effect = s'.sh.trace.filterMap effect := by
  have h := h.1
  generalize s.sh.trace = tr, s'.sh.trace = tr' at h
  induction h with
  | nil => rfl
  | cons he _ ih => rw [List.filterMap_cons, List.filterMap_cons, effect_rel he, ih]

/-- **C67** An invocation that ends ends in the same way: with success in both cases or in none, because of the same exit code,
or because of an interruption. -/
theorem C67_result {g : Str → Str} {s s' : State} (h : Mirrors g s s') {r : Option Err} (hr : s.prog = .ret r) :
    ∃ r', s'.prog = .ret r' ∧ (r = none ↔ r' = none) ∧ (r.map cause = some .canceled ↔ r'.map cause = some .canceled) ∧
      ∀ code, r.map cause = some (.exit code) ↔ r'.map cause = some (.exit code) := by
  obtain ⟨r', h1, h2⟩ := h.2 r hr
  have key : ∀ x : Err, (x = .canceled ∨ ∃ code, x = .exit code) → ∀ {e e' : Err}, ErrRel g e e' → (cause e = x ↔ cause e' = x) := by
    intro x hx e e' h
    induction h with
    | same => exact Iff.rfl
    | wrap t _ ih => exact ih
    | label l _ ih => exact ih
    | defs h h' =>
      rcases h with ⟨_, _, rfl⟩ | ⟨_, rfl⟩ <;> rcases h' with ⟨_, _, rfl⟩ | ⟨_, rfl⟩ <;> rcases hx with rfl | ⟨_, rfl⟩ <;> simp [cause]
    | _ => rcases hx with rfl | ⟨_, rfl⟩ <;> simp [cause]
  refine ⟨r', h1, Ren.endRel_none h2, ?_, fun code => ?_⟩
  · cases h2 with
    | ok => exact Iff.rfl
    | fail h => simpa using key _ (Or.inl rfl) h
  · cases h2 with
    | ok => exact Iff.rfl
    | fail h => simpa using key _ (Or.inr ⟨code, rfl⟩) h

/-- **C67** The exit status of bab is the same. -/
theorem C67_exit_status {x : Texts} {g : Str → Str} {s s' : State} (h : Mirrors g s s') {r : Option Err} (hr : s.prog = .ret r) :
    ∃ r', s'.prog = .ret r' ∧ (exitStatus (r.map (Err.toGo x))).1 = (exitStatus (r'.map (Err.toGo x))).1 := by
  obtain ⟨r', h1, h2, h3, -⟩ := C67_result h hr
  refine ⟨r', h1, ?_⟩
  have key : ∀ e : Err, (e.toGo x).isCanceled = true ↔ cause e = .canceled := by
    intro e
    induction e with
    | wrap t e ih => exact ih
    | canceled => exact ⟨fun _ => rfl, fun _ => rfl⟩
    | _ => simp [Err.toGo, GoErr.isCanceled, cause]
  have stat : ∀ e : Err, (exitStatus (some (e.toGo x))).1 = if (e.toGo x).isCanceled = true then 0 else 1 := by
    intro e
    rw [exitStatus]
    split <;> rfl
  cases r with
  | none => rw [h2.mp rfl]
  | some e =>
    cases r' with
    | none => cases h2.mpr rfl
    | some e' =>
      simp only [Option.map_some, Option.some.injEq] at h3 ⊢
      rw [stat, stat]
      by_cases hc : cause e = .canceled
      · rw [if_pos ((key e).mpr hc), if_pos ((key e').mpr (h3.mp hc))]
      · rw [if_neg (fun x => hc ((key e).mp x)), if_neg (fun x => hc (h3.mpr ((key e').mp x)))]

namespace Sample

/-- a file with variables, environment and a directory of its own, whose tasks use them and each other, and a file that
includes it -/
def parts : Files :=
  [ (s "/p/Babfile.yml", some { includes := [(s "web", s "web.yml")], tasks := [(s "all", { name := [], deps := [s "web:make"] })] }),
    (s "/p/web.yml", some {
      vars := some [(s "mode", s "fast"), (s "flags", s "--${{ mode }}")], env := [(s "E", s "${{ mode }}")], dir := s "src", silent := some true,
      tasks := [
        (s "make", {
          name := [], deps := [s "prep"], cond := s "${{ env.HOME }} != 'x'", vars := some [(s "out", s "bin-${{ flags }}")],
          run := [cmd "make ${{ flags }} ${{ out }}", par [call "prep", cmd "lint"]] }),
        (s "prep", { name := [], run := [cmd "mkdir ${{ mode }}"] })] }) ]

/-- the two invocations run the same commands -/
example : runs parts "/p/web.yml" "make" = ("succeeds", [s "mkdir fast", s "make --fast bin---fast", s "lint"]) ∧
    runs parts "/p/Babfile.yml" "web:make" = ("succeeds", [s "mkdir fast", s "make --fast bin---fast", s "lint"]) := by
  decide +kernel

theorem parts_wf : FilesWF parts := files_wf (by decide +kernel)

/-- the tasks meet the conditions -/
theorem parts_portable {b : Schema} (hb : parts.get? (s "/p/web.yml") = some (some b)) {a : Str} {T : Task}
    (h : Makes parts (s "/p/web.yml") a T) : Portable b T := by
  cases hb
  cases h with
  | own hf ht =>
    cases hf
    simp only [GoMap.get?] at ht
    have hcond : ∀ x, Mentions (s "${{ env.HOME }} != 'x'") x → ¬ IsEnv x → GoMap.get? [(s "mode", s "fast"), (s "flags", s "--${{ mode }}")] x = none := by
      intro x hx he
      rw [← mem_extract_iff] at hx
      have : x = s "env.HOME" := by
        have e : extractVarRefs 0 (s "${{ env.HOME }} != 'x'") = [s "env.HOME"] := by decide +kernel
        rw [e] at hx
        simpa using hx
      exact absurd ⟨s "HOME", by rw [this]; decide⟩ he
    split at ht
    · cases ht
      refine ⟨rfl, hcond, (fun h => nomatch h), ?_⟩
      intro k raw x hk _ hx _
      rw [← mem_extract_iff] at hx
      have : ∀ q ∈ [(s "mode", s "fast"), (s "flags", s "--${{ mode }}")], ∀ x ∈ extractVarRefs 0 q.2,
          GoMap.get? [(s "out", s "bin-${{ flags }}")] x = none := by decide +kernel
      exact this _ (GoMap.mem_of_get? hk) x hx
    · split at ht
      · cases ht
        refine ⟨rfl, ?_, fun _ p hp => ?_, fun _ _ _ _ _ _ _ => rfl⟩
        · intro x hx _
          rw [← mem_extract_iff] at hx
          cases hx
        · simp [cmd] at hp
      · cases ht
  | inc hi hf hm =>
    obtain ⟨bf, inc, h1, h2, -⟩ := hi
    cases h1
    cases h2

/-- so the theorem applies to them, with every order of the maps -/
example (v v' : Visit) (hv : VisitOK v) (hv' : VisitOK v') {c c' : Cfg} {t t' : TaskMap} {G G' : GoMap Str} {m m' : Str}
    (h : Cli.runTask (desk parts) v { babfile := s "/p/web.yml" } (s "make") = .run c t G m)
    (h' : Cli.runTask (desk parts) v' { babfile := s "/p/Babfile.yml" } (nsName (s "web") (s "make")) = .run c' t' G' m') :
    ∀ st, Reach (start c t G m) st → ∃ st', Reach (start c' t' G' m') st' ∧ Mirrors (nsName (s "web")) st st' := by
  have hq : Chosen (desk parts) (s "/p/web.yml") (s "/p/web.yml") := ⟨s "/p/web.yml", by rw [if_neg (by decide)], by decide +kernel, by decide +kernel⟩
  have hp : Chosen (desk parts) (s "/p/Babfile.yml") (s "/p/Babfile.yml") :=
    ⟨s "/p/Babfile.yml", by rw [if_neg (by decide)], by decide +kernel, by decide +kernel⟩
  have hn : FileHas parts (s "/p/web.yml") (s "make") := ⟨[], [], s "make", s "/p/web.yml", _, .own rfl rfl, rfl⟩
  have hi : Includes parts (s "/p/Babfile.yml") (s "web") (s "/p/web.yml") := ⟨_, s "web.yml", rfl, rfl, by decide +kernel⟩
  refine (C67_included (w := desk parts) parts_wf hv hv' (fl := { babfile := s "/p/web.yml" }) (fl' := { babfile := s "/p/Babfile.yml" })
    rfl hq hp hi rfl rfl ⟨rfl, rfl, rfl, rfl, rfl⟩ hn h h' ?_).1
  obtain ⟨q, b, f1, -, f3, -, f5, -⟩ := (runTask_run (w := desk parts) parts_wf hv h).file
  rw [chosen_unique f1 hq] at f5
  exact fun a T ha => parts_portable rfl ((f5 a T).mp ha)

end Sample
end Bab
