import Verif.Model.Report
import Verif.Spec.Report
import Verif.Props.Shown
import Verif.Props.Parallel
import Verif.Props.CommandLine
/-
C96: which messages are printed. C97: the summary of a parallel block.
-/

namespace Bab
open Spec Own

section
variable {c : Cfg} {tasks : TaskMap} {gvars : GoMap Str} {main : Str} {s : State}

theorem inBlocks_of_writes {n : Str} {o : Option Sink} (h : Writes c tasks main n o) : o ≠ none → InBlocks tasks n := by
  induction h with
  | main => intro h; exact absurd rfl h
  | dep _ hT hd ih => exact fun h => .dep (ih h) hT hd
  | call _ hT hi ih => exact fun h => .call (ih h) hT hi
  | item _ hT hi hj _ _ => exact fun _ => .item hT hi (List.mem_of_getElem? hj)
  | ahead _ hT hi ht hT' hd _ => exact fun _ => .dep (.item hT hi ht) hT' hd

theorem rank_debug {verbose : Bool} {level : Str} : Report.threshold verbose ≤ Report.rank level ↔ Wanted verbose level := by
  unfold Report.threshold Report.rank Wanted
  by_cases h : level = "debug".toList
  · rw [if_pos h]; cases verbose <;> simp [h]
  · rw [if_neg h]
    simp only [h, false_implies, iff_true]
    cases verbose <;> (repeat' split) <;> decide

/-- **C96**, in part: a message is printed exactly if its level is not `debug` or `--verbose` is given, whatever task it stands in
and however the task is run, unless messages of level `debug` stand in parallel blocks or in tasks that may run in one. Without the
last condition this is wrong (C96_debug_in_block). -/
theorem C96_messages_partial (h : Reach (start c tasks gvars main) s) (verbose : Bool) (hno : verbose = true ∨ NoDebugInBlocks tasks)
    {loc : Loc} {text level : Str} {o : Option Sink} (he : .logged loc text level o ∈ s.sh.trace) :
    Report.shows verbose level o = true ↔ Wanted verbose level := by
  cases o with
  | none => simp only [Report.shows, decide_eq_true_eq]; exact rank_debug
  | some x =>
    simp only [Report.shows, true_iff]
    rcases hno with hv | ⟨hno1, hno2⟩
    · exact fun _ => hv
    · intro hl
      exfalso
      obtain ⟨a, b, ht⟩ := List.append_of_mem he
      obtain ⟨-, l, m, k2, -, -, k5⟩ := Safe.event_ok h ht
      obtain ⟨g, m, call, h1, h2⟩ := C71_items h (.inr he)
      have hw := C71_task h h1
      generalize ho : (some x : Option Sink) = o at h2
      generalize hc : call.out = co at h2 hw
      cases h2 with
      | @own n i _ =>
        have hb : InBlocks tasks n := inBlocks_of_writes hw (by rw [← ho]; simp)
        unfold itemAt at k2
        cases hT : tasks.get? n with
        | none => simp [hT] at k2
        | some T =>
          simp [hT] at k2
          exact hno1 n T l hb hT (List.mem_of_getElem? k2) (k5 ▸ hl)
      | @item n i j _ T items labels mode lim color bs bo pl w ln _ hT hi hs =>
        unfold itemAt at k2
        simp [hT, hi] at k2
        exact hno2 n T items labels mode lim color bs bo pl w ln l hT (List.mem_of_getElem? hi) (List.mem_of_getElem? k2) (k5 ▸ hl)

/-- **C96**, in part: with the words of the command line. -/
theorem C96_command_line_partial {args : List Str} {said : Words.Said} {ws : List Str} (hl : Words.Line args said ws) {w w' : Cli.World} {v v' : Cli.Visit}
    {pick : Cli.Pick} (hi : CmdLine.invoke w w' v v' args pick = .did (.run c tasks gvars main))
    (h : Reach (start c tasks gvars main) s) (hno : NoDebugInBlocks tasks) {loc : Loc} {text level : Str} {o : Option Sink}
    (he : .logged loc text level o ∈ s.sh.trace) {st : CmdLine.Settings} (hs : CmdLine.readArgs args = .ok (st, ws)) :
    Report.shows st.verbose level o = true ↔ (level = "debug".toList → Words.On .verbose said = true) := by
  obtain ⟨h1, -⟩ := invoke_did hl hi
  have h2 := (C95_reads args (CmdLine.meant said) ws).mpr ⟨said, hl, h1, rfl⟩
  rw [hs] at h2
  obtain ⟨rfl, -⟩ := Prod.mk.inj (Except.ok.inj h2)
  exact C96_messages_partial h _ (.inr hno) he

/-- C96: a message that is not of level `debug` is always printed, and with `--verbose` every message is. -/
theorem C96_always {verbose : Bool} {level : Str} (hw : Wanted verbose level) (o : Option Sink) : Report.shows verbose level o = true := by
  cases o with
  | none => simp only [Report.shows, decide_eq_true_eq]; exact rank_debug.mpr hw
  | some x => rfl

end

namespace Sample

def debugLog : RunItem := .log { log := s "secret", level := s "debug" }

/-- the same message outside of a block and in one -/
def chatty : TaskMap :=
  [(s "t", { name := s "t", run := [debugLog, .log { log := s "hi", level := s "warn" }, par [cmd "a", debugLog]] })]

def chattyRun : State := Exec.drive [.auto 400] (start {} chatty [] (s "t"))

end Sample

/-- C96 fails: messages of level `debug` are printed without `--verbose` if they stand in a parallel block. -/
theorem C96_debug_in_block : ∃ (tasks : TaskMap) (main : Str) (s : State) (loc loc' : Loc) (text level : Str) (o : Option Sink),
    Reach (start {} tasks [] main) s ∧ .logged loc text level none ∈ s.sh.trace ∧ .logged loc' text level o ∈ s.sh.trace ∧
    ¬ Wanted false level ∧ Report.shows false level none = false ∧ Report.shows false level o = true :=
  ⟨Sample.chatty, Sample.s "t", Sample.chattyRun, ⟨Sample.s "t", 0, none⟩, ⟨Sample.s "t", 2, some 1⟩, Sample.s "secret", Sample.s "debug",
    some ⟨[], [1]⟩, Exec.reach _ _, by decide +kernel, by decide +kernel,
    (fun h => Bool.noConfusion (h (by decide +kernel))), by decide +kernel, rfl⟩

example : Report.printed false Sample.chattyRun.sh.trace = [(⟨Sample.s "t", 1, none⟩, Sample.s "hi"), (⟨Sample.s "t", 2, some 1⟩, Sample.s "secret")] := by
  decide +kernel

namespace Sample

/-- a message of level `debug` outside of the blocks, and a block that calls a task with messages of other levels -/
def discreet : TaskMap :=
  [(s "t", { name := s "t", run := [debugLog, par [call "u"]] }),
   (s "u", { name := s "u", run := [.log { log := s "hi", level := s "warn" }] })]

theorem discreet_cases {n : Str} {T : Task} (h : discreet.get? n = some T) :
    T.deps = [] ∧ ((n = s "t" ∧ T.run = [debugLog, par [call "u"]]) ∨ (n = s "u" ∧ T.run = [.log { log := s "hi", level := s "warn" }])) := by
  unfold discreet at h
  by_cases h1 : n = s "t"
  · subst h1; cases h; exact ⟨rfl, .inl ⟨rfl, rfl⟩⟩
  · by_cases h2 : n = s "u"
    · subst h2; cases h; exact ⟨rfl, .inr ⟨rfl, rfl⟩⟩
    · simp [GoMap.get?, h1, h2, Ne.symm h1, Ne.symm h2] at h

theorem discreet_blocks {n : Str} (h : InBlocks discreet n) : n = s "u" := by
  induction h with
  | item hT hi ht =>
    rcases (discreet_cases hT).2 with ⟨-, hr⟩ | ⟨-, hr⟩ <;> rw [hr] at hi <;> simp [debugLog, par, call] at hi
    obtain ⟨rfl, -⟩ := hi
    simp at ht
    rw [ht]
  | dep _ hT hd _ => rw [(discreet_cases hT).1] at hd; cases hd
  | call _ hT hi _ => rcases (discreet_cases hT).2 with ⟨-, hr⟩ | ⟨-, hr⟩ <;> rw [hr] at hi <;> simp [debugLog, par, call] at hi

end Sample

example : NoDebugInBlocks Sample.discreet ∧
    Report.printed false (Exec.drive [.auto 400] (start {} Sample.discreet [] (Sample.s "t"))).sh.trace = [(⟨Sample.s "u", 0, none⟩, Sample.s "hi")] ∧
    Report.printed true (Exec.drive [.auto 400] (start {} Sample.discreet [] (Sample.s "t"))).sh.trace =
      [(⟨Sample.s "t", 0, none⟩, Sample.s "secret"), (⟨Sample.s "u", 0, none⟩, Sample.s "hi")] := by
  refine ⟨⟨fun n T l hb hT hl => ?_, fun n T items labels mode lim color bs bo pl w ln l hT hi hl => ?_⟩, by decide +kernel, by decide +kernel⟩
  · rcases (Sample.discreet_cases hT).2 with ⟨hn, -⟩ | ⟨-, hr⟩
    · rw [Sample.discreet_blocks hb] at hn; exact absurd hn (by decide +kernel)
    · rw [hr] at hl
      cases List.mem_singleton.mp hl
      decide +kernel
  · rcases (Sample.discreet_cases hT).2 with ⟨-, hr⟩ | ⟨-, hr⟩ <;> rw [hr] at hi <;> simp [Sample.debugLog, Sample.par, Sample.call] at hi
    obtain ⟨rfl, -⟩ := hi
    simp at hl

/-! C97 -/

section
variable {c : Cfg} {tasks : TaskMap} {gvars : GoMap Str} {main : Str} {s : State}

/-- the event ends or drops item `j` of a block -/
def subFinal (loc : Loc) : Ev → Bool
  | .subEnd n i j _ => decide (loc = ⟨n, i, some j⟩)
  | .subAbort n i j => decide (loc = ⟨n, i, some j⟩)
  | _ => false

theorem subFinal_once (h : Reach (start c tasks gvars main) s) (loc : Loc) : s.sh.trace.countP (subFinal loc) ≤ 1 := by
  refine once_at h subFinal (fun _ _ => True) SubLife.Over ?_ ?_ ?_ ?_ ?_ ?_ loc
  · intro n i e he; cases e <;> simp [subFinal] at he
  · intro n i j e he
    cases e <;> simp [subFinal] at he
    all_goals obtain ⟨rfl, rfl, rfl⟩ := he; rfl
  · intro n T i q e q' _ _
    refine ⟨trivial, ?_⟩
    cases e <;> simp [subFinal]
  · intros; trivial
  · intro n i j item q e q' hq hs; exact (sub_over_step hq hs).elim
  · intro n i j item q e q' he hs
    cases hs with
    | inner e hp => cases hp <;> simp [subFinal] at he
    | start => simp [subFinal] at he
    | _ => trivial

theorem itemErr_of_mem {n : Str} {i j : Nat} {r : Option Err} : ∀ {t : List Ev}, t.countP (subFinal ⟨n, i, some j⟩) ≤ 1 →
    (.subEnd n i j r ∈ t ∨ (.subAbort n i j ∈ t ∧ r = some .canceled)) → Report.itemErr n i j t = r := by
  intro t hc hm
  have hskip : ∀ (t : List Ev) (r0 : Option Err), t.countP (subFinal ⟨n, i, some j⟩) = 0 →
      t.foldl (Report.writeErr n i j) r0 = r0 := by
    intro t
    induction t with
    | nil => intro r0 _; rfl
    | cons e t ih =>
      intro r0 h0
      rw [List.countP_eq_zero] at h0
      have h1 := h0 e List.mem_cons_self
      have h2 : t.countP (subFinal ⟨n, i, some j⟩) = 0 := List.countP_eq_zero.mpr fun x hx => h0 x (List.mem_cons_of_mem _ hx)
      rw [List.foldl_cons]
      cases e with
      | subEnd n' i' j' r' =>
        have : ¬ (n' = n ∧ i' = i ∧ j' = j) := by
          rintro ⟨rfl, rfl, rfl⟩; simp [subFinal] at h1
        unfold Report.writeErr; dsimp only; rw [if_neg this]; exact ih _ h2
      | subAbort n' i' j' =>
        have : ¬ (n' = n ∧ i' = i ∧ j' = j) := by
          rintro ⟨rfl, rfl, rfl⟩; simp [subFinal] at h1
        unfold Report.writeErr; dsimp only; rw [if_neg this]; exact ih _ h2
      | _ => exact ih _ h2
  have key : ∀ (e : Ev), subFinal ⟨n, i, some j⟩ e = true → e ∈ t → ∃ a b, t = a ++ e :: b ∧ b.countP (subFinal ⟨n, i, some j⟩) = 0 := by
    intro e he hm
    obtain ⟨a, b, rfl⟩ := List.append_of_mem hm
    refine ⟨a, b, rfl, ?_⟩
    rw [List.countP_append, List.countP_cons, if_pos he] at hc
    omega
  unfold Report.itemErr
  rcases hm with hm | ⟨hm, rfl⟩
  · obtain ⟨a, b, rfl, hb⟩ := key _ (by simp [subFinal]) hm
    rw [List.foldl_append, List.foldl_cons, hskip b _ hb]
    simp [Report.writeErr]
  · obtain ⟨a, b, rfl, hb⟩ := key _ (by simp [subFinal]) hm
    rw [List.foldl_append, List.foldl_cons, hskip b _ hb]
    simp [Report.writeErr]

theorem cancels_iff (x : Texts) : ∀ e : Err, (e.toGo x).isCanceled = true ↔ Cancels e := by
  intro e
  induction e with
  | canceled => exact ⟨fun _ => .root, fun _ => rfl⟩
  | wrap w e ih =>
    change (e.toGo x).isCanceled = true ↔ _
    rw [ih]
    exact ⟨.wrap, fun h => by cases h; assumption⟩
  | _ => exact ⟨fun h => by simp [Err.toGo, GoErr.isCanceled] at h, fun h => by cases h⟩

theorem join_eq : ∀ ps : List Str, Report.join ps = List.intercalate [' ', ' '] ps
  | [] => rfl
  | [p] => by simp [Report.join, List.intercalate]
  | p :: q :: ps => by
    rw [Report.join, join_eq (q :: ps)]
    · simp [List.intercalate, List.intersperse]
    · simp

/-- **C97** The line that sums up a block shows each item once, in their order, under its label, and the sign behind it is the one
that says how the item ended. -/
theorem C97_summary (x : Texts) (h : Reach (start c tasks gvars main) s) {n : Str} {i : Nat} {r : Option Err} {a b : List Ev}
    (ht : s.sh.trace = a ++ .parEnd n i r :: b) :
    ∃ items labels mode lim color bs bo pl w ln signs,
      itemAt tasks ⟨n, i, none⟩ = some (.parallel items labels mode lim color bs bo pl w ln) ∧
      signs.length = items.length ∧
      Report.summary x n i items labels a = "● Parallel [".toList ++
        List.intercalate [' ', ' '] ((List.range items.length).zipWith (fun j ch => itemLabel items labels j ++ [' ', ch]) signs) ++ "]".toList ∧
      ∀ j, j < items.length → ∀ ch, signs[j]? = some ch ↔ Marked a n i j ch := by
  obtain ⟨items, labels, mode, lim, color, bs, bo, pl, w, ln, hi, h1, -⟩ := C24_block_waits h ht
  have once : ∀ j, a.countP (subFinal ⟨n, i, some j⟩) ≤ 1 := by
    intro j
    have := subFinal_once h ⟨n, i, some j⟩
    rw [ht, List.countP_append] at this
    omega
  refine ⟨items, labels, mode, lim, color, bs, bo, pl, w, ln, (List.range items.length).map fun j => (Report.markOf x (Report.itemErr n i j a)).sign,
    hi, by simp, ?_, ?_⟩
  · unfold Report.summary Report.renderParallelDone
    rw [if_neg (by simp), List.zipWith_map, List.zipWith_map_right, join_eq]
  · intro j hj ch
    rw [List.getElem?_map, List.getElem?_range hj]
    simp only [Option.map_some, Option.some.injEq]
    have mk : ∀ {r' : Option Err}, (.subEnd n i j r' ∈ a ∨ (.subAbort n i j ∈ a ∧ r' = some .canceled)) →
        Report.itemErr n i j a = r' := fun hm => itemErr_of_mem (once j) hm
    constructor
    · rintro rfl
      rcases h1 j hj with ⟨r', hr⟩ | ⟨hr, -⟩
      · rw [mk (.inl hr)]
        cases r' with
        | none => exact .ok hr
        | some e =>
          unfold Report.markOf; dsimp only
          by_cases hc : (e.toGo x).isCanceled = true
          · rw [if_pos hc]; exact .cancelled hr ((cancels_iff x e).mp hc)
          · rw [if_neg hc]; exact .failed hr (fun h => hc ((cancels_iff x e).mpr h))
      · rw [mk (.inr ⟨hr, rfl⟩)]
        exact .dropped hr
    · intro hm
      cases hm with
      | ok hr => rw [mk (.inl hr)]; rfl
      | dropped hr => rw [mk (.inr ⟨hr, rfl⟩)]; rfl
      | @cancelled e hr hc => rw [mk (.inl hr)]; unfold Report.markOf; dsimp only; rw [if_pos ((cancels_iff x e).mpr hc)]; rfl
      | @failed e hr hc => rw [mk (.inl hr)]; unfold Report.markOf; dsimp only; rw [if_neg (fun h => hc ((cancels_iff x e).mp h))]; rfl

/-- **C97** `✓` is behind an item only if it has done its work: its command has ended with status 0, its task is done, its message was
logged. -/
theorem C97_tick (h : Reach (start c tasks gvars main) s) {n : Str} {i j : Nat} (hm : Marked s.sh.trace n i j '✓') {item : RunItem}
    (hi : itemAt tasks ⟨n, i, some j⟩ = some item) : LeafDone (· ∈ s.sh.trace) c.dry ⟨n, i, some j⟩ item := by
  cases hm with
  | ok hr =>
    obtain ⟨a, b, ht⟩ := List.append_of_mem hr
    exact Safe.leafDone_mono (fun e he => by rw [ht]; exact List.mem_append_left _ he) (Safe.event_ok h ht rfl item hi)

/-- **C97** No item has two signs. -/
theorem C97_one_sign (h : Reach (start c tasks gvars main) s) {n : Str} {i j : Nat} {x y : Char} (hx : Marked s.sh.trace n i j x)
    (hy : Marked s.sh.trace n i j y) : x = y := by
  have mk : ∀ {r' r'' : Option Err}, (.subEnd n i j r' ∈ s.sh.trace ∨ (.subAbort n i j ∈ s.sh.trace ∧ r' = some .canceled)) →
      (.subEnd n i j r'' ∈ s.sh.trace ∨ (.subAbort n i j ∈ s.sh.trace ∧ r'' = some .canceled)) → r' = r'' :=
    fun h1 h2 => (itemErr_of_mem (subFinal_once h _) h1).symm.trans (itemErr_of_mem (subFinal_once h _) h2)
  cases hx with
  | ok h1 => cases hy with
    | ok => rfl
    | dropped h2 => cases mk (.inl h1) (.inr ⟨h2, rfl⟩)
    | cancelled h2 => cases mk (.inl h1) (.inl h2)
    | failed h2 => cases mk (.inl h1) (.inl h2)
  | dropped h1 => cases hy with
    | ok h2 => cases mk (.inr ⟨h1, rfl⟩) (.inl h2)
    | failed h2 hc => cases mk (.inr ⟨h1, rfl⟩) (.inl h2); exact absurd .root hc
    | _ => rfl
  | cancelled h1 h1c => cases hy with
    | ok h2 => cases mk (.inl h1) (.inl h2)
    | failed h2 hc => cases mk (.inl h1) (.inl h2); exact absurd h1c hc
    | _ => rfl
  | failed h1 h1c => cases hy with
    | ok h2 => cases mk (.inl h1) (.inl h2)
    | dropped h2 => cases mk (.inl h1) (.inr ⟨h2, rfl⟩); exact absurd .root h1c
    | cancelled h2 hc => cases mk (.inl h1) (.inl h2); exact absurd hc h1c
    | failed => rfl

/-- **C97** The block has failed if a sign is `✗`, and only if one is not `✓`. -/
theorem C97_result (h : Reach (start c tasks gvars main) s) {n : Str} {i : Nat} {r : Option Err} {a b : List Ev}
    (ht : s.sh.trace = a ++ .parEnd n i r :: b) :
    ((∃ j, Marked a n i j '✗') → r.isSome) ∧
    (r.isSome → ∃ items lim j, blockAt tasks n i = some (items, lim) ∧ j < items.length ∧ ¬ Marked a n i j '✓') := by
  obtain ⟨items, labels, mode, lim, color, bs, bo, pl, w, ln, hi, -, h2⟩ := Safe.event_ok h ht
  have sub : ∀ {j ch}, Marked a n i j ch → Marked s.sh.trace n i j ch := by
    intro j ch hm
    have hs : ∀ e ∈ a, e ∈ s.sh.trace := fun e he => by rw [ht]; exact List.mem_append_left _ he
    cases hm with
    | ok h => exact .ok (hs _ h)
    | dropped h => exact .dropped (hs _ h)
    | cancelled h hc => exact .cancelled (hs _ h) hc
    | failed h hc => exact .failed (hs _ h) hc
  constructor
  · rintro ⟨j, hm⟩
    obtain ⟨_, _, _, _, _, _, _, _, _, _, -, -, h4, -⟩ := C24_block_waits h ht
    cases hm with
    | failed hr _ => exact h4.mpr ⟨j, _, hr⟩
  · intro hr
    obtain ⟨e, rfl⟩ := Option.isSome_iff_exists.mp hr
    obtain ⟨j, e', hj, h3, -⟩ := h2 e rfl
    refine ⟨items, lim, j, ?_, hj, fun hm => ?_⟩
    · unfold itemAt at hi
      unfold blockAt
      cases hT : tasks.get? n with
      | none => simp [hT] at hi
      | some T => simp [hT] at hi; simp [hi]
    · have hm' : Marked a n i j '✗' ∨ Marked a n i j '⊘' := by
        by_cases hc : Cancels e'
        · exact .inr (.cancelled h3 hc)
        · exact .inl (.failed h3 hc)
      rcases hm' with hm' | hm' <;> cases C97_one_sign h (sub hm) (sub hm')

end

namespace Sample

/-- a block of the view with the limit 1 -/
def mixed : TaskMap :=
  [(s "t", { name := s "t", run := [.parallel [cmd "good", cmd "bad", cmd "late"] [] .grouped 1 none none none [] [] 0] })]

/-- the first item succeeds, the second one fails, the invocation is cancelled, and the third one gives up waiting -/
def mixedRun : State :=
  Exec.drive [.auto 12, .rep (.sub 0 .go) 20, .rep (.sub 1 .go) 5, .rep (.sub 1 (.fail 7)) 1, .rep (.sub 1 .go) 3, .cancel 0,
    .rep (.abort 2) 1, .auto 100]
    (start { stderrTTY := true } mixed [] (s "t"))

/-- the end of the second item and that of the block -/
def badEnd : Ev → Bool
  | .subEnd n 0 1 (some (.wrap (.command _ _) (.exit _))) => decide (n = s "t")
  | _ => false

def badBlock : Ev → Bool
  | .parEnd n 0 (some _) => decide (n = s "t")
  | _ => false

end Sample
open Sample

example : Reach (start { stderrTTY := true } mixed [] (s "t")) mixedRun ∧ (∃ e, .parEnd (s "t") 0 (some e) ∈ mixedRun.sh.trace) ∧
    Marked mixedRun.sh.trace (s "t") 0 0 '✓' ∧ Marked mixedRun.sh.trace (s "t") 0 1 '✗' ∧ Marked mixedRun.sh.trace (s "t") 0 2 '⊘' := by
  refine ⟨Exec.reach _ _, ?_, .ok (by decide +kernel), ?_, .dropped (by decide +kernel)⟩
  · obtain ⟨v, h1, h2⟩ := List.any_eq_true.mp (by decide +kernel : mixedRun.sh.trace.any badBlock = true)
    unfold badBlock at h2
    split at h2
    · obtain rfl := of_decide_eq_true h2
      exact ⟨_, h1⟩
    · cases h2
  · obtain ⟨v, h1, h2⟩ := List.any_eq_true.mp (by decide +kernel : mixedRun.sh.trace.any badEnd = true)
    unfold badEnd at h2
    split at h2
    · obtain rfl := of_decide_eq_true h2
      exact .failed h1 (fun h => by cases h with | wrap h => cases h)
    · cases h2

end Bab
