import Verif.Spec.Shown
import Verif.Proof.Message
/-
C71: the functions of the runner pass the writers on as the definitions say.
-/

namespace Bab
open Spec

namespace Shown
open Msg

/-- the view that is running around a task, from its writers -/
def viewOf : Option Sink → Option (List Nat)
  | some ⟨key, []⟩ => some key
  | _ => none

section
variable {c : Cfg} {tasks : TaskMap} {main : Str}

/-- the program does not write anywhere else -/
abbrev W (c : Cfg) (tasks : TaskMap) (main : Str) (p : Prog) (S : List Ev) : Prop := Out (Placed c tasks main) p (fun _ _ => True) S

theorem W.plain {v : Ev} {p : Prog} {S : List Ev} (hv : ∀ S', Placed c tasks main S' v)
    (h : ∀ S', S ⊆ S' → v ∈ S' → W c tasks main p S') : W c tasks main (.note v p) S := .note (fun S' _ => hv S') h

theorem W.ret {r : Option Err} {S : List Ev} : W c tasks main (.ret r) S := fun _ _ => trivial

theorem W.bind {p : Prog} {f : Option Err → Prog} {S : List Ev} (h : W c tasks main p S) (hf : ∀ r S', S ⊆ S' → W c tasks main (f r) S') :
    W c tasks main (p.bind f) S := Out.bind h fun r S' hs _ => hf r S' hs

theorem W.act {a : Act} {k : a.Resp → Prog} {S : List Ev} (he : ∀ x S', S ⊆ S' → ∀ v ∈ a.evs x, Placed c tasks main S' v)
    (h : ∀ x S', S ⊆ S' → Fine S' a x → W c tasks main (k x) (S' ++ a.evs x)) : W c tasks main (.act a k) S :=
  fun x S' hs hf => ⟨he x S' hs, h x S' hs hf⟩

theorem runs_mono {S S' : List Ev} {n : Str} {o : Option Sink} (hs : S ⊆ S') (h : Runs S n o) : Runs S' n o := by
  obtain ⟨g, m, call, h1, h2⟩ := h
  exact ⟨g, m, call, hs h1, h2⟩

/-- what a call of `runTask` needs to know -/
structure FrOk (c : Cfg) (tasks : TaskMap) (main n : Str) (fr : Frame) : Prop where
  writes : Writes c tasks main n fr.out
  view : fr.pctx = viewOf fr.out

theorem runProc {T : Task} {fr : Frame} {loc : Loc} {v : CommandRun} {text dir : Str} {env : GoMap Str} {task : Str} {o : Option Sink} {S : List Ev}
    (hr : Runs S loc.task o) (hat : At c tasks loc o fr.out) :
    W c tasks main (Bab.runProc task fr loc (procSpec c fr T v text env dir)) S := by
  refine W.act (fun x S' hs v hv => ?_) fun started S1 hs1 _ => ?_
  · cases x with
    | true =>
      simp only [Act.evs, List.mem_singleton] at hv; subst hv
      refine ⟨o, fr.out, runs_mono hs hr, hat, ?_, ?_⟩
      · unfold procSpec
        cases fr.out <;> cases isOutput [_, _, _, _] <;> simp
      · intro h
        revert h
        unfold procSpec
        cases fr.out <;> cases isOutput [_, _, _, _] <;> simp
    | false => simp only [Act.evs, List.mem_singleton] at hv; subst hv; trivial
  · cases started with
    | true =>
      refine W.act ?_ fun r S2 hs2 _ => ?_
      · intro x S' _ v hv
        simp only [Act.evs, List.mem_singleton] at hv; subst hv; trivial
      · cases r with
        | none => exact W.ret
        | some code => exact .quiet (fun _ => rfl) fun b S3 hs3 hfine => W.ret
    | false => exact .quiet (fun _ => rfl) fun b S3 hs3 hfine => W.ret

theorem executeCommand {T : Task} {fr : Frame} {loc : Loc} {v : CommandRun} {vars : VarEnv} {tenv : GoMap Str} {o : Option Sink} {S : List Ev}
    (hr : Runs S loc.task o) (hat : At c tasks loc o fr.out) : W c tasks main (Bab.executeCommand c T fr loc v vars tenv) S := by
  unfold Bab.executeCommand
  split
  · exact W.ret
  · refine .readVars fun m S1 hs1 => W.plain (fun _ => trivial) fun S2 hs2 _ => ?_
    have hr2 := runs_mono (hs1.trans hs2) hr
    split
    · exact W.ret
    · split
      · exact W.plain (fun _ => trivial) fun _ _ _ => W.ret
      · simp only
        split
        · exact runProc hr2 hat
        · exact .note (fun S3 hs3 => ⟨o, runs_mono hs3 hr2, hat⟩) fun S3 hs3 _ => runProc (runs_mono hs3 hr2) hat

/-- recursive calls write where they should -/
def RecW (c : Cfg) (tasks : TaskMap) (main : Str) (rec : Rec) : Prop :=
  ∀ fr b n S, FrOk c tasks main n fr → (b = true → n = main ∧ fr.out = none) → W c tasks main (rec fr b n) S

variable {rec : Rec} (hrec : RecW c tasks main rec)
include hrec

theorem executeRunItem {T : Task} {fr : Frame} {loc : Loc} {item : RunItem} {vars : VarEnv} {tenv : GoMap Str} {o : Option Sink} {S : List Ev}
    (hr : Runs S loc.task o) (hat : At c tasks loc o fr.out) (hf : ∀ t, item = .task t → FrOk c tasks main t.task fr) :
    W c tasks main (Bab.executeRunItem c rec T fr loc item vars tenv) S := by
  unfold Bab.executeRunItem
  cases item with
  | command v => exact executeCommand hr hat
  | task t =>
    simp only
    split
    · exact W.plain (fun _ => trivial) fun _ _ _ => W.ret
    · exact hrec _ _ _ _ ⟨(hf t rfl).writes, (hf t rfl).view⟩ (fun h => by cases h)
  | log l =>
    refine .readVars fun m S1 hs1 => W.plain (fun _ => trivial) fun S2 hs2 _ => ?_
    have hr2 := runs_mono (hs1.trans hs2) hr
    split
    · exact W.ret
    · split
      · exact W.plain (fun _ => trivial) fun _ _ _ => W.ret
      · exact .note (fun S3 hs3 => ⟨o, runs_mono hs3 hr2, hat⟩) fun _ _ _ => W.ret
  | prompt p => exact W.ret
  | parallel => exact W.ret

theorem preDeps {fr : Frame} {ds seen : List Str} {k : List Str → Prog} {S : List Ev} (hd : ∀ d ∈ ds, FrOk c tasks main d fr)
    (hk : ∀ s S', S ⊆ S' → W c tasks main (k s) S') : W c tasks main (preDeps rec fr ds seen k) S := by
  induction ds generalizing seen S with
  | nil => exact hk seen S (List.Subset.refl _)
  | cons d ds ih =>
    have ih := fun seen S' (hs : S ⊆ S') => ih (seen := seen) (S := S') (fun x hx => hd x (List.mem_cons_of_mem _ hx))
      (fun s S'' hs' => hk s S'' (hs.trans hs'))
    unfold Bab.preDeps
    split
    · exact ih _ _ (List.Subset.refl _)
    · refine .quiet (fun _ => rfl) fun s S1 hs1 _ => ?_
      split
      · exact ih _ _ hs1
      · refine W.bind (hrec _ _ _ _ (hd d List.mem_cons_self) (fun h => by cases h)) fun r S2 hs2 => ?_
        cases r with
        | none => exact ih _ _ (hs1.trans hs2)
        | some e => exact W.ret

theorem preResolveDeps {fr : Frame} {items : List RunItem} {seen : List Str} {k : Prog} {S : List Ev}
    (hd : ∀ t U d, .task t ∈ items → tasks.get? t.task = some U → d ∈ U.deps → FrOk c tasks main d fr)
    (hk : ∀ S', S ⊆ S' → W c tasks main k S') : W c tasks main (preResolveDeps tasks rec fr items seen k) S := by
  induction items generalizing seen S with
  | nil => exact hk S (List.Subset.refl _)
  | cons item items ih =>
    have ih := fun seen S' (hs : S ⊆ S') => ih (seen := seen) (S := S') (fun t U d ht => hd t U d (List.mem_cons_of_mem _ ht))
      (fun S'' hs' => hk S'' (hs.trans hs'))
    cases item with
    | task t =>
      unfold Bab.preResolveDeps
      cases hT : tasks.get? t.task with
      | none => exact W.ret
      | some U => exact preDeps hrec (fun d hdd => hd t U d List.mem_cons_self hT hdd) (fun s S' hs => ih s S' hs)
    | _ => exact ih seen S (List.Subset.refl _)

omit hrec in
theorem runBlock {n : Str} {i : Nat} {lim : Nat} {ctx : CtxPath} {items : List RunItem} {labels : List Str} {child : Nat → RunItem → Prog} {S : List Ev}
    (h : ∀ (j : Nat) item S', S ⊆ S' → items[j]? = some item → W c tasks main (child j item) S') :
    W c tasks main (Bab.runBlock lim ctx n i items labels child) S := by
  refine ⟨fun _ _ => True, fun _ _ _ _ _ => trivial, fun e he => trivial, fun j => ?_, fun r S' hs hr => ?_⟩
  · have hj : items[(j : Nat)]? = some (items.get j) := by simp
    exact W.plain (fun _ => trivial) fun S1 hs _ => W.bind (h j _ _ hs hj) fun r S2 _ => W.plain (fun _ => trivial) fun S3 hs3 hsub => W.ret
  · exact W.plain (fun _ => trivial) fun S3 hs3 _ => W.ret

theorem executeParallel {n : Str} {T : Task} (hT : tasks.get? n = some T) {fr : Frame} {i : Nat} {items : List RunItem} {labels : List Str}
    {mode : ParallelMode} {lim : Nat} {color silent output : Option Bool} {pl : List Str} {w : Str} {m tenv : GoMap Str} {S : List Ev}
    (hi : T.run[i]? = some (.parallel items labels mode lim color silent output pl w ln)) (hfr : FrOk c tasks main n fr) (hr : Runs S n fr.out) :
    W c tasks main (executeParallel c tasks rec n T fr i items labels mode lim color silent output m tenv) S := by
  have hmem : .parallel items labels mode lim color silent output pl w ln ∈ T.run := List.mem_of_getElem? hi
  unfold Bab.executeParallel
  refine preResolveDeps hrec (fun t U d h1 h2 h3 => ⟨.ahead hfr.writes hT hmem h1 h2 h3, hfr.view⟩) fun S1 hs1 => ?_
  have hr1 := runs_mono hs1 hr
  split
  · exact W.plain (fun _ => trivial) fun _ _ _ => W.ret
  -- an item of the block with its writers
  have hchild : ∀ (fr' : Frame) (j : Nat) (item : RunItem) (s : Sink) S', S1 ⊆ S' → items[j]? = some item → fr'.out = some s →
      fr'.pctx = viewOf (some s) → InBlock c.stderrTTY mode fr.out j s →
      W c tasks main (Bab.executeRunItem c rec T fr' ⟨n, i, some j⟩ item (.own m) tenv) S' := by
    intro fr' j item s S' hs hj ho hp hb
    refine executeRunItem hrec (runs_mono hs hr1) (ho ▸ .item hT hi hb) fun t ht => ⟨?_, ?_⟩
    · subst ht; rw [ho]; exact .item hfr.writes hT hmem hj hb
    · rw [hp, ho]
  have hview : ∀ {p : Bool}, ((mode == .grouped || mode == .tabs) && c.stderrTTY && p) = true → c.stderrTTY = true ∧ mode ≠ .interleaved ∧ p = true := by
    intro p h
    simp only [Bool.and_eq_true, Bool.or_eq_true, beq_iff_eq] at h
    refine ⟨h.1.2, fun hm => ?_, h.2⟩
    subst hm
    simp at h
  have hno : ∀ {p : Bool}, ¬ ((mode == .grouped || mode == .tabs) && c.stderrTTY && p) = true → c.stderrTTY = false ∨ mode = .interleaved ∨ p = false := by
    intro p h
    clear hchild hmem hi
    revert h
    generalize c.stderrTTY = q
    cases mode <;> cases q <;> cases p <;> simp
  simp only
  split
  · rename_i hu
    obtain ⟨ht, hm, hp⟩ := hview hu
    unfold executeParallelTUI
    simp only
    have hv := hfr.view
    cases ho : fr.out with
    | none =>
      rw [ho] at hv hr1
      rw [hv]
      simp only [viewOf]
      refine .quiet (fun _ => rfl) fun id S2 hs2 _ => W.act ?_ fun ok S3 hs3 _ => ?_
      · intro x S' hs v hv
        simp only [Act.evs, List.mem_singleton] at hv; subst hv
        exact ⟨ht, n, T, items, labels, mode, lim, color, silent, output, pl, w, ln, runs_mono (hs2.trans hs) hr1, hT, hmem, hm⟩
      · cases ok with
        | false => exact W.ret
        | true =>
          simp only [if_true]
          refine .note (fun S4 hs4 => ⟨none, runs_mono ((hs2.trans hs3).trans ((List.subset_append_left _ _).trans hs4)) hr1, ?_⟩) fun S4 hs4 _ => ?_
          · intro _ _ _ _ _ _ _ _ _ _ _ _ _ _ _ _
            exact hs4 (by simp [Act.evs])
          · refine runBlock fun j item S' hs' hj => hchild _ j item ⟨[j], []⟩ S' ?_ hj rfl rfl (ho ▸ .view ht hm)
            exact ((hs2.trans hs3).trans (List.subset_append_left _ _)).trans (hs4.trans hs')
    | some s =>
      obtain ⟨key, prefixes⟩ := s
      rw [ho] at hv hr1 hp
      cases prefixes with
      | cons a l => 
        rw [hv] at hp
        simp [viewOf] at hp
      | nil =>
        rw [hv]
        simp only [viewOf]
        refine .note (fun S4 hs4 => ⟨some ⟨key, []⟩, runs_mono hs4 hr1, fun _ h => by cases h⟩) fun S4 hs4 _ => ?_
        exact runBlock fun j item S' hs' hj => hchild _ j item ⟨key ++ [j], []⟩ S' (hs4.trans hs') hj rfl rfl (ho ▸ .below ht hm)
  · rename_i hu
    have hu := hno hu
    unfold executeParallelInterleaved
    simp only
    refine .note (fun S4 hs4 => ⟨fr.out, runs_mono hs4 hr1, ?_⟩) fun S4 hs4 _ => runBlock fun j item S' hs' hj => ?_
    · intro ht ho T' items' labels' mode' lim' color' bs' bo' pl' w' ln' hT' hi' hm'
      rw [hT] at hT'; cases hT'
      rw [hi] at hi'; cases hi'
      rw [ho] at hu
      simp only [Option.isNone_none, Bool.true_or] at hu
      rcases hu with h | h | h
      · rw [ht] at h; cases h
      · exact absurd h hm'
      · cases h
    · have hv := hfr.view
      cases ho : fr.out with
      | none =>
        refine hchild _ j item ⟨[], [j]⟩ S' (hs4.trans hs') hj (by simp) (by simp [viewOf]) (ho ▸ .lines ?_)
        rw [ho] at hu
        rcases hu with h | h | h
        · exact Or.inl h
        · exact Or.inr h
        · simp at h
      | some s =>
        obtain ⟨key, prefixes⟩ := s
        refine hchild _ j item ⟨key, prefixes ++ [j]⟩ S' (hs4.trans hs') hj (by simp) ?_ (ho ▸ .within ?_)
        · cases prefixes <;> rfl
        · rcases hu with h | h | h
          · exact Or.inl h
          · exact Or.inr (Or.inl h)
          · refine Or.inr (Or.inr fun h0 => ?_)
            subst h0
            rw [ho] at hv h
            rw [hv] at h
            simp [viewOf] at h

omit hrec in
theorem executePrompt {n task : Str} {i : Nat} {p : PromptRun} {vars : VarEnv} {k : Option Err → VarEnv → Prog} {S : List Ev}
    (hk : ∀ r v S', S ⊆ S' → W c tasks main (k r v) S') : W c tasks main (executePrompt c task ⟨n, i, none⟩ p vars k) S := by
  unfold Bab.executePrompt
  refine .readVars fun m S1 hs1 => W.plain (fun _ => trivial) fun S2 hs2 _ => ?_
  have hs := hs1.trans hs2
  cases hp : placed p.line (interpolatePrompt p ⟨m, c.env⟩) with
  | error e =>
    exact hk _ _ _ hs
  | ok p' =>
    replace hp := of_placed_ok hp
    simp only
    have hgot : ∀ (r : Except Err Str) S3, S2 ⊆ S3 → W c tasks main (match r with
          | .error e => k (some (.wrap (.prompt task p.prompt) e)) vars
          | .ok ans => Bab.writeVar vars p.prompt ans (k none)) S3 := by
      intro r S3 hs3
      cases r with
      | error e => exact hk _ _ _ (hs.trans hs3)
      | ok a => exact .writeVar fun m S4 hs4 => hk _ _ _ ((hs.trans hs3).trans hs4)
    split
    · exact W.plain (fun _ => trivial) fun S3 hs3 _ => hk _ _ _ (hs.trans hs3)
    · split
      · refine W.act ?_ fun r S3 hs3 hfine => hgot r _ (hs3.trans (List.subset_append_left _ _))
        intro x S' _ v hv
        simp only [Act.evs, List.mem_singleton] at hv; subst hv; trivial
      · exact W.plain (fun _ => trivial) fun S3 hs3 hmem => hgot _ _ hs3

theorem executeItem {n : Str} {T : Task} (hT : tasks.get? n = some T) {fr : Frame} {i : Nat} {item : RunItem} {vars : VarEnv} {tenv : GoMap Str}
    {k : Option Err → VarEnv → Prog} {S : List Ev} (hi : T.run[i]? = some item) (hfr : FrOk c tasks main n fr) (hr : Runs S n fr.out)
    (hk : ∀ r v S', S ⊆ S' → W c tasks main (k r v) S') : W c tasks main (executeItem c tasks rec n T fr i item vars tenv k) S := by
  have simple : W c tasks main ((Bab.executeRunItem c rec T fr ⟨n, i, none⟩ item vars tenv).bind fun r => k r vars) S := by
    refine W.bind (executeRunItem hrec hr .own fun t ht => ⟨?_, hfr.view⟩) fun r S2 hs2 => hk _ _ _ hs2
    subst ht
    exact .call hfr.writes hT (List.mem_of_getElem? hi)
  unfold Bab.executeItem
  cases item with
  | prompt p => exact executePrompt hk
  | parallel items labels mode lim color silent output pl w ln =>
    simp only
    split
    · exact W.plain (fun _ => trivial) fun S' hs _ => hk _ _ _ hs
    · exact .readVars fun m S1 hs1 => W.bind (executeParallel hrec hT hi hfr (runs_mono hs1 hr)) fun r S2 hs2 => hk _ _ _ (hs1.trans hs2)
  | command v => exact simple
  | log l => exact simple
  | task t => exact simple

theorem executeItems {n : Str} {T : Task} (hT : tasks.get? n = some T) {fr : Frame} {tenv : GoMap Str} {items : List RunItem} {i : Nat} {vars : VarEnv}
    {ex sk : Nat} {S : List Ev} (before : List RunItem) (hb : before ++ items = T.run) (hi : before.length = i)
    (hfr : FrOk c tasks main n fr) (hr : Runs S n fr.out) : W c tasks main (executeItems c tasks rec n T fr tenv items i vars ex sk) S := by
  induction items generalizing i vars ex sk S before with
  | nil => unfold Bab.executeItems; split <;> exact W.ret
  | cons item rest ih =>
    have hat : T.run[i]? = some item := by rw [← hb, ← hi]; simp
    have hlater : ∀ vars ex sk S', S ⊆ S' → W c tasks main (Bab.executeItems c tasks rec n T fr tenv rest (i + 1) vars ex sk) S' :=
      fun vars ex sk S' hs => ih (before ++ [item]) (by rw [← hb]; simp) (by simp [hi]) (runs_mono hs hr)
    unfold Bab.executeItems
    refine .quiet (fun _ => rfl) fun b S1 hs1 _ => ?_
    simp only
    have hgo : ∀ (w : Option (GoMap Str)) S', S ⊆ S' → W c tasks main (.note (.itemStart n i w) <|
          Bab.executeItem c tasks rec n T fr i item vars tenv fun r vars' =>
            .note (.itemEnd n i r) <|
            match r with
            | some e => .ret (some e)
            | none => Bab.executeItems c tasks rec n T fr tenv rest (i + 1) vars' (ex + 1) sk) S' := by
      intro w S' hs
      refine W.plain (fun _ => trivial) fun S2 hs2 hst => executeItem hrec hT hat hfr (runs_mono (hs.trans hs2) hr) fun r v S3 hs3 => ?_
      refine W.plain (fun _ => trivial) fun S4 hs4 _ => ?_
      cases r with
      | some e => exact W.ret
      | none => exact hlater _ _ _ _ (((hs.trans hs2).trans hs3).trans hs4)
    split
    · exact W.ret
    · split
      · exact W.plain (fun _ => trivial) fun S2 hs2 _ => hlater _ _ _ _ (hs1.trans hs2)
      · split
        · exact hgo _ _ hs1
        · refine .readVars fun m S2 hs2 => ?_
          split
          · exact W.ret
          · exact W.plain (fun _ => trivial) fun S3 hs3 _ => hlater _ _ _ _ ((hs1.trans hs2).trans hs3)
          · exact hgo _ _ (hs1.trans hs2)

theorem runDeps {n : Str} {fr : Frame} {k : Prog} {ds : List Str} {i : Nat} {S : List Ev} (hd : ∀ d ∈ ds, FrOk c tasks main d fr)
    (hk : ∀ S', S ⊆ S' → W c tasks main k S') : W c tasks main (runDeps rec n fr k ds i) S := by
  induction ds generalizing i S with
  | nil => exact hk S (List.Subset.refl _)
  | cons d ds ih =>
    unfold Bab.runDeps
    refine W.bind (hrec _ _ _ _ ⟨(hd d List.mem_cons_self).writes, (hd d List.mem_cons_self).view⟩ (fun h => by cases h)) fun r S1 hs1 => ?_
    cases r with
    | none =>
      exact W.plain (fun _ => trivial) fun S2 hs2 _ => ih (fun x hx => hd x (List.mem_cons_of_mem _ hx)) fun S3 hs3 => hk S3 ((hs1.trans hs2).trans hs3)
    | some e => exact W.plain (fun _ => trivial) fun S2 hs2 _ => W.ret

theorem executeTask {n : Str} {T : Task} (hT : tasks.get? n = some T) {fr : Frame} {S : List Ev} (hfr : FrOk c tasks main n fr)
    (hec : c.dry = false → isSilent [fr.ovSilent, T.silent, c.globalSilent] = false → ∃ b, .echoTask n b fr.out ∈ S) :
    W c tasks main (executeTask c tasks rec n T fr) S := by
  unfold Bab.executeTask
  refine .quiet (fun _ => rfl) fun g S1 hs1 _ => ?_
  split
  · exact W.ret
  · refine .note (fun S2 hs2 => ⟨hfr.writes, fun T' hT' hd hs => ?_⟩) fun S2 hs2 hmem => ?_
    · rw [hT] at hT'; cases hT'
      exact (hec hd hs).imp fun b h => hs2 (hs1 h)
    · split
      · exact W.ret
      · exact executeItems hrec hT [] rfl rfl hfr ⟨_, _, _, hmem, rfl⟩

theorem runTaskBody {n : Str} {fr : Frame} {isMain : Bool} {S : List Ev} (hfr : FrOk c tasks main n fr) (hmain : isMain = true → n = main ∧ fr.out = none) :
    W c tasks main (runTaskBody c tasks rec fr isMain n) S := by
  unfold Bab.runTaskBody
  cases hT : tasks.get? n with
  | none => exact W.ret
  | some T =>
  simp only
  have hfin : ∀ S, W c tasks main (.act (.setDone n) fun _ => .ret none) S := fun S => W.act (fun x S' _ v hv => by
    simp only [Act.evs, List.mem_singleton] at hv; subst hv; trivial) fun _ _ _ _ => W.ret
  have hdeps : ∀ S, (c.dry = false → isSilent [fr.ovSilent, T.silent, c.globalSilent] = false → ∃ b, .echoTask n b fr.out ∈ S) →
      W c tasks main (Bab.runDeps rec n fr
      (if T.run = [] then .act (.setDone n) fun _ => .ret none
       else (Bab.executeTask c tasks rec n T fr).bind fun
        | some e => .ret (some e)
        | none => .act (.setDone n) fun _ => .ret none) T.deps 0) S := by
    intro S hec
    refine runDeps hrec (fun d hd => ⟨.dep hfr.writes hT hd, hfr.view⟩) fun S1 hs1 => ?_
    split
    · exact hfin _
    · refine W.bind (executeTask hrec hT hfr fun h1 h2 => (hec h1 h2).imp fun b h => hs1 h) fun r S2 _ => ?_
      cases r with
      | none => exact hfin _
      | some e => exact W.ret
  have hgo : ∀ {A : Prog}, (∀ S, (c.dry = false → isSilent [fr.ovSilent, T.silent, c.globalSilent] = false → ∃ b, .echoTask n b fr.out ∈ S) →
      W c tasks main A S) → ∀ S,
      W c tasks main (if !c.dry && !isSilent [fr.ovSilent, T.silent, c.globalSilent] then .note (.echoTask n isMain fr.out) A else A) S := by
    intro A h S
    split
    · exact W.plain (fun _ => ⟨hfr.writes, hmain⟩) fun S' _ hm => h S' fun _ _ => ⟨_, hm⟩
    · rename_i hn
      exact h S fun h1 h2 => by rw [h1, h2] at hn; simp at hn
  split
  · exact hgo hdeps S
  · refine .quiet (fun _ => rfl) fun g S1 _ _ => ?_
    split
    · exact W.ret
    · exact W.plain (fun _ => trivial) fun S2 _ _ => hfin _
    · exact W.plain (fun _ => trivial) fun S2 _ _ => hgo hdeps _

end

theorem runTask {c : Cfg} {tasks : TaskMap} {main : Str} (f : Nat) : RecW c tasks main (Bab.runTask c tasks f) := by
  induction f with
  | zero => exact fun fr b n S _ _ x S' _ hf => hf.elim
  | succ f ih =>
    intro fr b n S hfr hb
    unfold Bab.runTask
    refine W.act ?_ fun s S1 _ hfine => ?_
    · intro x S' _ v hv
      cases x with
      | none => simp only [Act.evs, List.mem_singleton] at hv; subst hv; trivial
      | some s => simp [Act.evs] at hv
    · cases s with
      | none => exact W.bind (runTaskBody ih hfr hb) fun r S2 _ => W.plain (fun _ => trivial) fun S3 hs3 _ => W.ret
      | some s =>
        cases s with
        | done => exact W.ret
        | running => exact .quiet (fun _ => rfl) fun st S2 hs2 _ => W.ret

theorem placed_mono {c : Cfg} {tasks : TaskMap} {main : Str} {S S' : List Ev} {v : Ev} (hs : S ⊆ S') (h : Placed c tasks main S v) :
    Placed c tasks main S' v := by
  cases v with
  | taskVars n g m call => exact ⟨h.1, fun T hT h1 h2 => (h.2 T hT h1 h2).imp fun b h => hs h⟩
  | echoCmd loc t s => obtain ⟨o, h1, h2⟩ := h; exact ⟨o, runs_mono hs h1, h2⟩
  | logged loc t l s => obtain ⟨o, h1, h2⟩ := h; exact ⟨o, runs_mono hs h1, h2⟩
  | procStart loc spec => obtain ⟨o, s, h1, h2⟩ := h; exact ⟨o, s, runs_mono hs h1, h2⟩
  | tuiStart b =>
    obtain ⟨h1, n, T, items, labels, mode, lim, color, bs, bo, pl, w, ln, h2, h3⟩ := h
    exact ⟨h1, n, T, items, labels, mode, lim, color, bs, bo, pl, w, ln, runs_mono hs h2, h3⟩
  | parBegin n i m =>
    obtain ⟨o, h1, h2⟩ := h
    exact ⟨o, runs_mono hs h1, fun a b T items labels mode lim color bs bo pl w ln h3 h4 h5 => hs (h2 a b T items labels mode lim color bs bo pl w ln h3 h4 h5)⟩
  | _ => exact h

theorem reach {c : Cfg} {tasks : TaskMap} {gvars : GoMap Str} {main : Str} {s : State} (h : Reach (start c tasks gvars main) s) {a b : List Ev} {v : Ev}
    (hv : s.sh.trace = a ++ v :: b) : Placed c tasks main a v :=
  (Msg.reach_of (E := Placed c tasks main) (φ := fun _ _ => True) (fun _ _ _ hs h => placed_mono hs h) (fun _ _ _ _ _ => trivial) (fun _ _ _ _ => trivial) (fun _ _ => trivial)
    (runTask _ _ _ _ _ ⟨.main, rfl⟩ (fun _ => ⟨rfl, rfl⟩)) h).2 a v b hv

end Shown

end Bab
