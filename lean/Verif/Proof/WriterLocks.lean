import Verif.Proof.Writer
import Mathlib.Data.List.Chain
/-
The invariant of concurrent writers.
-/

namespace Bab
open Spec

theorem updAt_self {α : Type} (f : Nat → α) (i : Nat) (v : α) : updAt f i v i = v := by simp [updAt]
theorem updAt_ne {α : Type} (f : Nat → α) {i j : Nat} (v : α) (h : j ≠ i) : updAt f i v j = f j := by simp [updAt, h]

theorem linesOf_append (a b : List (Nat × Bytes)) (w : Nat) : linesOf (a ++ b) w = linesOf a w ++ linesOf b w := by
  simp [linesOf]

theorem linesOf_map_self (ls : List Bytes) (w : Nat) : linesOf (ls.map (fun l => (w, l))) w = ls := by
  induction ls with
  | nil => rfl
  | cons l ls ih =>
    have : linesOf ((w, l) :: ls.map (fun l => (w, l))) w = l :: linesOf (ls.map (fun l => (w, l))) w := by
      simp [linesOf]
    rw [List.map_cons, this, ih]

theorem linesOf_map_ne (ls : List Bytes) {w w' : Nat} (h : w ≠ w') : linesOf (ls.map (fun l => (w, l))) w' = [] := by
  simp [linesOf, List.filter_eq_nil_iff, h]

theorem received_append (evs : List WEvent) (e : WEvent) (w : Nat) :
    received (evs ++ [e]) w = received evs w ++ (if e.w = w then [e.data] else []) := by
  by_cases h : e.w = w <;> simp [received, h]

theorem fromChild_append (evs : List WEvent) (e : WEvent) (w : Nat) :
    fromChild (evs ++ [e]) w = fromChild evs w ++ (if e.child = some w then [e.data] else []) := by
  by_cases h : e.child = some w <;> simp [fromChild, h]

theorem ownCalls_append (evs : List WEvent) (e : WEvent) (t : Nat) :
    ownCalls (evs ++ [e]) t = ownCalls evs t ++ (if e.thread = t ∧ e.child = none then [(e.w, e.data)] else []) := by
  by_cases h : e.thread = t ∧ e.child = none
  · simp [ownCalls, h]
  · rw [if_neg h, List.append_nil, ownCalls, ownCalls, List.filter_append]
    have : List.filter (fun e => decide (e.thread = t ∧ e.child = none)) [e] = [] := by
      rw [List.filter_cons_of_neg (by simpa using h), List.filter_nil]
    rw [this, List.append_nil]

/-- the lines for the terminal -/
def rootLines (S : Writers) (log : List (Nat × Bytes)) : List (Nat × Bytes) :=
  log.filter (fun x => (S.parent x.1).isNone)

/-- what the terminal shows for some lines -/
def termOf (S : Writers) (log : List (Nat × Bytes)) : Bytes := log.flatMap (fun x => shown S x.1 x.2)

theorem handle_spec (S : Writers) (w : Nat) (part : Bytes) (data : Option Bytes) (ops : List (Option Bytes))
    (ls : List Bytes) (h : Produces ops ls part) :
    ∃ new, Produces (ops ++ [data]) (ls ++ new) (S.handle w part data).1 ∧
      (S.handle w part data).2 = new.map (shown S w) := by
  cases data with
  | some d =>
    obtain ⟨raw, hs, he⟩ := process_split (S.clean w) part d
    refine ⟨raw, h.write hs, ?_⟩
    simp only [Writers.handle]
    rw [he, List.map_map]
    rfl
  | none =>
    obtain ⟨h1, h2⟩ := flush_lines (S.clean w) part
    refine ⟨if part = [] then [] else [part], ?_, ?_⟩
    · simp only [Writers.handle]
      rw [h1]
      exact h.flush
    · simp only [Writers.handle]
      rw [h2, List.map_map]
      rfl

structure WInv (S : Writers) (prog : Nat → List (Nat × Option Bytes)) (st : WState) (log : List (Nat × Bytes))
    (pend : Nat → List Bytes) (pr : List Bytes) : Prop where
  held : ∀ m t, st.held m = some t ↔ ∃ f ∈ (st.thr t).stack, S.lock f.w = m
  nodup : ∀ t, ((st.thr t).stack.map (fun f => S.lock f.w)).Nodup
  chain : ∀ t, ((st.thr t).stack.map (·.w)).IsChain (fun a b => S.parent b = some a)
  pendIn : ∀ t, ∀ f ∈ (st.thr t).stack, pend f.w = f.lines
  pendOut : ∀ w, (∀ t, ∀ f ∈ (st.thr t).stack, f.w ≠ w) → pend w = []
  prIn : ∀ t, ∀ f ∈ (st.thr t).stack, S.parent f.w = none → pr = f.lines
  prOut : (∀ t, ∀ f ∈ (st.thr t).stack, S.parent f.w ≠ none) → pr = []
  todo : ∀ t, ownCalls st.evs t ++ (st.thr t).todo = prog t
  produces : ∀ w, Produces (received st.evs w) (linesOf log w) (st.buf w)
  child : ∀ w p, S.parent w = some p →
    fromChild st.evs w ++ (pend w).map some = (linesOf log w).map (fun l => some (shown S w l))
  childEv : ∀ e ∈ st.evs, ∀ c, e.child = some c → S.parent c = some e.w
  term : st.term ++ pr.flatten = termOf S (rootLines S log)

theorem WInv.init (S : Writers) (prog : Nat → List (Nat × Option Bytes)) :
    WInv S prog (Writers.init prog) [] (fun _ => []) [] where
  held := by simp [Writers.init]
  nodup := by simp [Writers.init]
  chain := by simp [Writers.init]
  pendIn := by simp [Writers.init]
  pendOut := by simp
  prIn := by simp [Writers.init]
  prOut := by simp
  todo := by simp [Writers.init, ownCalls]
  produces := by intro w; exact .nil
  child := by intro w p _; rfl
  childEv := by simp [Writers.init]
  term := rfl

theorem rootLines_append (S : Writers) (a b : List (Nat × Bytes)) : rootLines S (a ++ b) = rootLines S a ++ rootLines S b := by
  simp [rootLines]

theorem rootLines_new (S : Writers) (ls : List Bytes) (w : Nat) :
    rootLines S (ls.map (fun l => (w, l))) = if S.parent w = none then ls.map (fun l => (w, l)) else [] := by
  by_cases h : S.parent w = none
  · rw [if_pos h, rootLines, List.filter_eq_self]
    intro a ha
    obtain ⟨l, _, rfl⟩ := List.mem_map.mp ha
    simp [h]
  · rw [if_neg h, rootLines, List.filter_eq_nil_iff]
    intro a ha
    obtain ⟨l, _, rfl⟩ := List.mem_map.mp ha
    simpa using h

theorem termOf_append (S : Writers) (a b : List (Nat × Bytes)) : termOf S (a ++ b) = termOf S a ++ termOf S b := by
  simp [termOf]

theorem termOf_new (S : Writers) (ls : List Bytes) (w : Nat) :
    termOf S (ls.map (fun l => (w, l))) = (ls.map (shown S w)).flatten := by
  rw [termOf, List.flatMap_map, List.flatMap_def]

/-- a goroutine whose innermost call finishes -/
theorem WInv.ret {S : Writers} {prog : Nat → List (Nat × Option Bytes)} {st : WState} {log : List (Nat × Bytes)}
    {pend : Nat → List Bytes} {pr : List Bytes} (h : WInv S prog st log pend pr) {t w : Nat} {fs : List WFrame}
    (hs : (st.thr t).stack = ⟨w, []⟩ :: fs) :
    WInv S prog { st with held := updAt st.held (S.lock w) none, thr := updAt st.thr t ⟨fs, (st.thr t).todo⟩ } log pend pr := by
  have hsub : ∀ t', ∀ f ∈ (updAt st.thr t ⟨fs, (st.thr t).todo⟩ t').stack, f ∈ (st.thr t').stack := by
    intro t' f hf
    by_cases ht : t' = t
    · subst ht
      rw [updAt_self] at hf
      rw [hs]; exact List.mem_cons_of_mem _ hf
    · rwa [updAt_ne _ _ ht] at hf
  have hnd := h.nodup t
  rw [hs, List.map_cons, List.nodup_cons] at hnd
  have hfree : ∀ t', ∀ f ∈ (updAt st.thr t ⟨fs, (st.thr t).todo⟩ t').stack, S.lock f.w ≠ S.lock w := by
    intro t' f hf he
    have h1 : st.held (S.lock w) = some t := (h.held _ _).mpr ⟨⟨w, []⟩, by rw [hs]; simp, rfl⟩
    have h2 : st.held (S.lock w) = some t' := (h.held _ _).mpr ⟨f, hsub t' f hf, he⟩
    obtain rfl : t = t' := Option.some.inj (h1.symm.trans h2)
    rw [updAt_self] at hf
    exact hnd.1 (List.mem_map.mpr ⟨f, hf, he⟩)
  constructor
  · intro m t'
    dsimp only
    by_cases hm : m = S.lock w
    · subst hm
      rw [updAt_self]
      constructor
      · intro hh; cases hh
      · rintro ⟨f, hf, he⟩
        exact absurd he (hfree t' f hf)
    · rw [updAt_ne _ _ hm, h.held]
      constructor
      · rintro ⟨f, hf, he⟩
        refine ⟨f, ?_, he⟩
        by_cases ht : t' = t
        · subst ht
          rw [updAt_self]
          rw [hs] at hf
          rcases List.mem_cons.mp hf with rfl | hf
          · exact absurd he.symm hm
          · exact hf
        · rwa [updAt_ne _ _ ht]
      · rintro ⟨f, hf, he⟩
        exact ⟨f, hsub t' f hf, he⟩
  · intro t'
    dsimp only
    by_cases ht : t' = t
    · subst ht; rw [updAt_self]; exact hnd.2
    · rw [updAt_ne _ _ ht]; exact h.nodup t'
  · intro t'
    dsimp only
    by_cases ht : t' = t
    · subst ht
      rw [updAt_self]
      have := h.chain t'
      rw [hs, List.map_cons] at this
      exact this.tail
    · rw [updAt_ne _ _ ht]; exact h.chain t'
  · intro t' f hf; exact h.pendIn t' f (hsub t' f hf)
  · intro w' hw'
    by_cases he : w' = w
    · subst he
      exact h.pendIn t ⟨w', []⟩ (by rw [hs]; simp)
    · refine h.pendOut w' ?_
      intro t' f hf hfw
      by_cases ht : t' = t
      · subst ht
        rw [hs] at hf
        rcases List.mem_cons.mp hf with rfl | hf
        · exact he hfw.symm
        · exact hw' t' f (by dsimp only; rw [updAt_self]; exact hf) hfw
      · exact hw' t' f (by dsimp only; rw [updAt_ne _ _ ht]; exact hf) hfw
  · intro t' f hf; exact h.prIn t' f (hsub t' f hf)
  · intro hn
    by_cases hw : S.parent w = none
    · exact h.prIn t ⟨w, []⟩ (by rw [hs]; simp) hw
    · refine h.prOut ?_
      intro t' f hf
      by_cases ht : t' = t
      · subst ht
        rw [hs] at hf
        rcases List.mem_cons.mp hf with rfl | hf
        · exact hw
        · exact hn t' f (by dsimp only; rw [updAt_self]; exact hf)
      · exact hn t' f (by dsimp only; rw [updAt_ne _ _ ht]; exact hf)
  · intro t'
    dsimp only
    by_cases ht : t' = t
    · subst ht; rw [updAt_self]; exact h.todo t'
    · rw [updAt_ne _ _ ht]; exact h.todo t'
  · exact h.produces
  · exact h.child
  · exact h.childEv
  · exact h.term

/-- a goroutine that writes to the terminal: the innermost call has lines `lines'` left -/
theorem WInv.put {S : Writers} {prog : Nat → List (Nat × Option Bytes)} {st : WState} {log : List (Nat × Bytes)}
    {pend : Nat → List Bytes} {pr : List Bytes} (h : WInv S prog st log pend pr) {t w : Nat} {fs : List WFrame}
    {lines lines' : List Bytes} (hs : (st.thr t).stack = ⟨w, lines⟩ :: fs) (hw : S.parent w = none) {root : Nat}
    {rank : Nat → Nat} (hok : WritersOK S root rank) (bs : Bytes) (hb : lines.flatten = bs ++ lines'.flatten) :
    WInv S prog { st with term := st.term ++ bs, thr := updAt st.thr t ⟨⟨w, lines'⟩ :: fs, (st.thr t).todo⟩ } log
      (updAt pend w lines') lines' := by
  have hws : ∀ t', (updAt st.thr t ⟨⟨w, lines'⟩ :: fs, (st.thr t).todo⟩ t').stack.map (·.w) = (st.thr t').stack.map (·.w) := by
    intro t'
    by_cases ht : t' = t
    · subst ht; rw [updAt_self, hs]; rfl
    · rw [updAt_ne _ _ ht]
  have hls : ∀ t', (updAt st.thr t ⟨⟨w, lines'⟩ :: fs, (st.thr t).todo⟩ t').stack.map (fun f => S.lock f.w)
      = (st.thr t').stack.map (fun f => S.lock f.w) := by
    intro t'
    have := congrArg (List.map S.lock) (hws t')
    simpa [List.map_map, Function.comp_def] using this
  have hmem : ∀ t' m, (∃ f ∈ (updAt st.thr t ⟨⟨w, lines'⟩ :: fs, (st.thr t).todo⟩ t').stack, S.lock f.w = m) ↔
      ∃ f ∈ (st.thr t').stack, S.lock f.w = m := by
    intro t' m
    have e : m ∈ (updAt st.thr t ⟨⟨w, lines'⟩ :: fs, (st.thr t).todo⟩ t').stack.map (fun f => S.lock f.w) ↔
        m ∈ (st.thr t').stack.map (fun f => S.lock f.w) := by rw [hls t']
    rwa [List.mem_map, List.mem_map] at e
  have hheld : st.held (S.lock w) = some t := (h.held _ _).mpr ⟨⟨w, lines⟩, by rw [hs]; simp, rfl⟩
  -- the only call on the lock of `w` is the one on top
  have honly : ∀ t', ∀ f ∈ (updAt st.thr t ⟨⟨w, lines'⟩ :: fs, (st.thr t).todo⟩ t').stack, S.lock f.w = S.lock w →
      f = ⟨w, lines'⟩ := by
    intro t' f hf he
    have h2 : st.held (S.lock w) = some t' := (h.held _ _).mpr ((hmem t' _).mp ⟨f, hf, he⟩)
    obtain rfl : t = t' := Option.some.inj (hheld.symm.trans h2)
    rw [updAt_self] at hf
    rcases List.mem_cons.mp hf with rfl | hf
    · rfl
    · exfalso
      have hnd := h.nodup t
      rw [hs, List.map_cons, List.nodup_cons] at hnd
      exact hnd.1 (List.mem_map.mpr ⟨f, hf, he⟩)
  have hold : ∀ t', ∀ f ∈ (updAt st.thr t ⟨⟨w, lines'⟩ :: fs, (st.thr t).todo⟩ t').stack, S.lock f.w ≠ S.lock w →
      f ∈ (st.thr t').stack := by
    intro t' f hf he
    by_cases ht : t' = t
    · subst ht
      rw [updAt_self] at hf
      rcases List.mem_cons.mp hf with rfl | hf
      · exact absurd rfl he
      · rw [hs]; exact List.mem_cons_of_mem _ hf
    · rwa [updAt_ne _ _ ht] at hf
  constructor
  · intro m t'
    exact (h.held m t').trans (hmem t' m).symm
  · intro t'; dsimp only; rw [hls]; exact h.nodup t'
  · intro t'; dsimp only; rw [hws]; exact h.chain t'
  · intro t' f hf
    by_cases he : S.lock f.w = S.lock w
    · rw [honly t' f hf he, updAt_self]
    · rw [updAt_ne _ _ (fun hh => he (by rw [hh])), h.pendIn t' f (hold t' f hf he)]
  · intro w' hw'
    by_cases he : w' = w
    · subst he
      exact absurd rfl (hw' t ⟨w', lines'⟩ (by dsimp only; rw [updAt_self]; simp))
    · rw [updAt_ne _ _ he]
      refine h.pendOut w' ?_
      intro t' f hf hfw
      have : w' ∈ (st.thr t').stack.map (·.w) := List.mem_map.mpr ⟨f, hf, hfw⟩
      rw [← hws t'] at this
      obtain ⟨f', hf', hfw'⟩ := List.mem_map.mp this
      exact hw' t' f' hf' hfw'
  · intro t' f hf hp
    have he : S.lock f.w = S.lock w := by rw [hok.root _ hp, hok.root _ hw]
    rw [honly t' f hf he]
  · intro hn
    exact absurd hw (hn t ⟨w, lines'⟩ (by dsimp only; rw [updAt_self]; simp))
  · intro t'
    dsimp only
    by_cases ht : t' = t
    · subst ht; rw [updAt_self]; exact h.todo t'
    · rw [updAt_ne _ _ ht]; exact h.todo t'
  · exact h.produces
  · intro w' p hp
    have : w' ≠ w := by rintro rfl; rw [hw] at hp; cases hp
    rw [updAt_ne _ _ this]
    exact h.child w' p hp
  · exact h.childEv
  · dsimp only
    have := h.prIn t ⟨w, lines⟩ (by rw [hs]; simp) hw
    rw [← h.term, this, hb, List.append_assoc]

/-- a goroutine that calls a writer whose mutex is free -/
theorem WInv.enter {S : Writers} {prog : Nat → List (Nat × Option Bytes)} {st : WState} {log : List (Nat × Bytes)}
    {pend : Nat → List Bytes} {pr : List Bytes} (h : WInv S prog st log pend pr) {root : Nat} {rank : Nat → Nat}
    (hok : WritersOK S root rank) {t w : Nat} {child : Option Nat} {data : Option Bytes}
    {stack : List WFrame} {todo : List (Nat × Option Bytes)} {st' : WState}
    (he : S.enter st t w child data stack todo = some st')
    (hc : (child = none ∧ stack = [] ∧ (st.thr t).stack = [] ∧ (st.thr t).todo = (w, data) :: todo) ∨
      (∃ c line ls fs, child = some c ∧ S.parent c = some w ∧ data = some line ∧ stack = ⟨c, ls⟩ :: fs ∧
        (st.thr t).stack = ⟨c, line :: ls⟩ :: fs ∧ (st.thr t).todo = todo)) :
    ∃ log' pend' pr', WInv S prog st' log' pend' pr' := by
  rw [Writers.enter] at he
  cases hfr : st.held (S.lock w) with
  | some t' => simp [hfr] at he
  | none =>
    simp only [hfr, Option.some.injEq] at he
    obtain ⟨new, hprod, hnew⟩ := handle_spec S w (st.buf w) data _ _ (h.produces w)
    -- facts about the calls of the goroutine, the same in both cases
    have hws : stack.map (·.w) = (st.thr t).stack.map (·.w) := by
      rcases hc with ⟨_, e1, e2, _⟩ | ⟨c, line, ls, fs, _, _, _, e1, e2, _⟩ <;> rw [e1, e2] <;> rfl
    have hls : stack.map (fun f => S.lock f.w) = (st.thr t).stack.map (fun f => S.lock f.w) := by
      have := congrArg (List.map S.lock) hws
      simpa [List.map_map, Function.comp_def] using this
    have hmemS : ∀ m, (∃ f ∈ stack, S.lock f.w = m) ↔ ∃ f ∈ (st.thr t).stack, S.lock f.w = m := by
      intro m
      have e : m ∈ stack.map (fun f => S.lock f.w) ↔ m ∈ (st.thr t).stack.map (fun f => S.lock f.w) := by rw [hls]
      rwa [List.mem_map, List.mem_map] at e
    have hnolock : ∀ t', ∀ f ∈ (st.thr t').stack, S.lock f.w ≠ S.lock w := by
      intro t' f hf e
      have := (h.held (S.lock w) t').mpr ⟨f, hf, e⟩
      rw [hfr] at this; cases this
    have hnolockS : ∀ f ∈ stack, S.lock f.w ≠ S.lock w := by
      intro f hf e
      obtain ⟨f', hf', e'⟩ := (hmemS _).mp ⟨f, hf, e⟩
      exact hnolock t f' hf' e'
    have hthr : st'.thr = updAt st.thr t ⟨⟨w, (S.handle w (st.buf w) data).2⟩ :: stack, todo⟩ := by rw [← he]
    have hpw : pend w = [] := h.pendOut w (fun t' f hf e => hnolock t' f hf (by rw [e]))
    -- what is pending after the child's line has been handed over
    obtain ⟨pend1, hp1, hp1S, hp1O, hp1C⟩ : ∃ pend1 : Nat → List Bytes,
        (∀ t' ≠ t, ∀ f ∈ (st.thr t').stack, pend1 f.w = f.lines) ∧ (∀ f ∈ stack, pend1 f.w = f.lines) ∧
        (∀ w', (∀ t', ∀ f ∈ (st.thr t').stack, f.w ≠ w') → pend1 w' = []) ∧
        (∀ w' p, S.parent w' = some p → (if child = some w' then [data] else []) ++ (pend1 w').map some
          = (pend w').map some) := by
      rcases hc with ⟨ec, e1, e2, _⟩ | ⟨c, line, ls, fs, ec, hpc, ed, e1, e2, _⟩
      · refine ⟨pend, fun t' _ f hf => h.pendIn t' f hf, by rw [e1]; simp, h.pendOut, ?_⟩
        intro w' p _
        rw [ec]; simp
      · have hc1 : pend c = line :: ls := h.pendIn t ⟨c, line :: ls⟩ (by rw [e2]; simp)
        have hheld : st.held (S.lock c) = some t := (h.held _ _).mpr ⟨_, by rw [e2]; exact List.mem_cons_self, rfl⟩
        refine ⟨updAt pend c ls, ?_, ?_, ?_, ?_⟩
        · intro t' ht f hf
          rw [updAt_ne]
          · exact h.pendIn t' f hf
          · intro e
            have := (h.held (S.lock c) t').mpr ⟨f, hf, by rw [e]⟩
            rw [hheld] at this
            exact ht (Option.some.inj this).symm
        · intro f hf
          rw [e1] at hf
          rcases List.mem_cons.mp hf with rfl | hf
          · rw [updAt_self]
          · rw [updAt_ne]
            · exact h.pendIn t f (by rw [e2]; exact List.mem_cons_of_mem _ hf)
            · intro e
              have hnd := h.nodup t
              rw [e2, List.map_cons, List.nodup_cons] at hnd
              exact hnd.1 (List.mem_map.mpr ⟨f, hf, by simp [e]⟩)
        · intro w' hw'
          have : w' ≠ c := by
            rintro rfl
            exact hw' t ⟨w', line :: ls⟩ (by rw [e2]; simp) rfl
          rw [updAt_ne _ _ this]
          exact h.pendOut w' hw'
        · intro w' p _
          by_cases hw' : w' = c
          · subst hw'
            rw [updAt_self, hc1, ec, ed]
            simp
          · rw [updAt_ne _ _ hw', ec, if_neg (by simpa using fun e => hw' e.symm)]
            rfl
    have hnotcw : child ≠ some w := by
      rcases hc with ⟨ec, _⟩ | ⟨c, line, ls, fs, ec, hpc, _⟩
      · rw [ec]; simp
      · rw [ec]
        rintro ⟨⟩
        exact absurd (hok.up _ _ hpc) (Nat.lt_irrefl _)
    have hroot : S.parent w = none → ∀ t', ∀ f ∈ (st.thr t').stack, S.parent f.w ≠ none := by
      intro hw t' f hf hp
      exact hnolock t' f hf (by rw [hok.root _ hw, hok.root _ hp])
    have hsame : ∀ t' ≠ t, (st'.thr t') = st.thr t' := by
      intro t' ht; rw [hthr, updAt_ne _ _ ht]
    have hme : st'.thr t = ⟨⟨w, (S.handle w (st.buf w) data).2⟩ :: stack, todo⟩ := by rw [hthr, updAt_self]
    refine ⟨log ++ new.map (fun l => (w, l)), updAt pend1 w (S.handle w (st.buf w) data).2,
      if S.parent w = none then (S.handle w (st.buf w) data).2 else pr, ?_⟩
    constructor
    · intro m t'
      rw [← he]
      dsimp only
      by_cases ht : t' = t
      · subst ht
        rw [updAt_self (f := st.thr)]
        by_cases hm : m = S.lock w
        · subst hm
          rw [updAt_self]
          simp
        · rw [updAt_ne _ _ hm, h.held, ← hmemS]
          constructor
          · rintro ⟨f, hf, e⟩; exact ⟨f, List.mem_cons_of_mem _ hf, e⟩
          · rintro ⟨f, hf, e⟩
            rcases List.mem_cons.mp hf with rfl | hf
            · exact absurd e.symm hm
            · exact ⟨f, hf, e⟩
      · rw [updAt_ne (f := st.thr) _ ht]
        by_cases hm : m = S.lock w
        · subst hm
          rw [updAt_self]
          constructor
          · intro e; exact absurd (Option.some.inj e).symm ht
          · rintro ⟨f, hf, e⟩; exact absurd e (hnolock t' f hf)
        · rw [updAt_ne _ _ hm, h.held]
    · intro t'
      by_cases ht : t' = t
      · subst ht
        rw [hme, List.map_cons, List.nodup_cons]
        refine ⟨?_, by rw [hls]; exact h.nodup t'⟩
        intro hm
        obtain ⟨f, hf, e⟩ := List.mem_map.mp hm
        exact hnolockS f hf e
      · rw [hsame t' ht]; exact h.nodup t'
    · intro t'
      by_cases ht : t' = t
      · subst ht
        rw [hme, List.map_cons]
        have hch := h.chain t'
        rw [← hws] at hch
        rcases hc with ⟨ec, e1, e2, _⟩ | ⟨c, line, ls, fs, ec, hpc, ed, e1, e2, _⟩
        · rw [e1]; simp
        · rw [e1] at hch ⊢
          rw [List.map_cons] at hch ⊢
          exact hch.cons_cons hpc
      · rw [hsame t' ht]; exact h.chain t'
    · intro t' f hf
      by_cases ht : t' = t
      · subst ht
        rw [hme] at hf
        rcases List.mem_cons.mp hf with rfl | hf
        · rw [updAt_self]
        · rw [updAt_ne _ _ (fun e => hnolockS f hf (by rw [e]))]
          exact hp1S f hf
      · rw [hsame t' ht] at hf
        rw [updAt_ne _ _ (fun e => hnolock t' f hf (by rw [e]))]
        exact hp1 t' ht f hf
    · intro w' hw'
      have h1 : w' ≠ w := by
        rintro rfl
        exact hw' t ⟨w', _⟩ (by rw [hme]; exact List.mem_cons_self) rfl
      rw [updAt_ne _ _ h1]
      refine hp1O w' ?_
      intro t' f hf hfw
      by_cases ht : t' = t
      · subst ht
        have : w' ∈ (st.thr t').stack.map (·.w) := List.mem_map.mpr ⟨f, hf, hfw⟩
        rw [← hws] at this
        obtain ⟨f', hf', hfw'⟩ := List.mem_map.mp this
        exact hw' t' f' (by rw [hme]; exact List.mem_cons_of_mem _ hf') hfw'
      · exact hw' t' f (by rw [hsame t' ht]; exact hf) hfw
    · intro t' f hf hp
      by_cases hw : S.parent w = none
      · rw [if_pos hw]
        have hl : S.lock f.w = S.lock w := by rw [hok.root _ hp, hok.root _ hw]
        by_cases ht : t' = t
        · subst ht
          rw [hme] at hf
          rcases List.mem_cons.mp hf with rfl | hf
          · rfl
          · exact absurd hl (hnolockS f hf)
        · rw [hsame t' ht] at hf
          exact absurd hl (hnolock t' f hf)
      · rw [if_neg hw]
        by_cases ht : t' = t
        · subst ht
          rw [hme] at hf
          rcases List.mem_cons.mp hf with rfl | hf
          · exact absurd hp hw
          · rcases hc with ⟨ec, e1, e2, _⟩ | ⟨c, line, ls, fs, ec, hpc, ed, e1, e2, _⟩
            · rw [e1] at hf; simp at hf
            · rw [e1] at hf
              rcases List.mem_cons.mp hf with rfl | hf
              · rw [hpc] at hp; cases hp
              · exact h.prIn t' f (by rw [e2]; exact List.mem_cons_of_mem _ hf) hp
        · rw [hsame t' ht] at hf
          exact h.prIn t' f hf hp
    · intro hn
      by_cases hw : S.parent w = none
      · exact absurd hw (hn t ⟨w, _⟩ (by rw [hme]; exact List.mem_cons_self))
      · rw [if_neg hw]
        refine h.prOut ?_
        intro t' f hf hfp
        by_cases ht : t' = t
        · subst ht
          have : f.w ∈ (st.thr t').stack.map (·.w) := List.mem_map.mpr ⟨f, hf, rfl⟩
          rw [← hws] at this
          obtain ⟨f', hf', hfw'⟩ := List.mem_map.mp this
          exact hn t' f' (by rw [hme]; exact List.mem_cons_of_mem _ hf') (by rw [hfw']; exact hfp)
        · exact hn t' f (by rw [hsame t' ht]; exact hf) hfp
    · intro t'
      have hev : st'.evs = st.evs ++ [⟨w, t, child, data⟩] := by rw [← he]
      rw [hev, ownCalls_append]
      by_cases ht : t' = t
      · subst ht
        rw [hme]
        dsimp only
        rcases hc with ⟨ec, e1, e2, e3⟩ | ⟨c, line, ls, fs, ec, hpc, ed, e1, e2, e3⟩
        · rw [if_pos ⟨rfl, ec⟩, List.append_assoc, ← h.todo t', e3]; rfl
        · rw [if_neg (by rw [ec]; simp), List.append_nil, ← h.todo t', e3]
      · rw [hsame t' ht, if_neg (fun hh => ht hh.1.symm), List.append_nil]
        exact h.todo t'
    · intro w'
      have hev : st'.evs = st.evs ++ [⟨w, t, child, data⟩] := by rw [← he]
      have hbuf : st'.buf = updAt st.buf w (S.handle w (st.buf w) data).1 := by rw [← he]
      rw [hev, received_append, linesOf_append, hbuf]
      by_cases hw' : w' = w
      · subst hw'
        rw [if_pos rfl, linesOf_map_self, updAt_self]
        exact hprod
      · rw [if_neg (fun e => hw' e.symm), List.append_nil, linesOf_map_ne _ (fun e => hw' e.symm), List.append_nil,
          updAt_ne _ _ hw']
        exact h.produces w'
    · intro w' p hp
      have hev : st'.evs = st.evs ++ [⟨w, t, child, data⟩] := by rw [← he]
      rw [hev, fromChild_append, linesOf_append, List.map_append]
      dsimp only
      by_cases hw' : w' = w
      · subst hw'
        rw [updAt_self, linesOf_map_self, if_neg hnotcw, List.append_nil, hnew, List.map_map, ← h.child w' p hp, hpw]
        simp [Function.comp_def]
      · rw [updAt_ne _ _ hw', linesOf_map_ne _ (fun e => hw' e.symm), List.map_nil, List.append_nil, List.append_assoc,
          hp1C w' p hp]
        exact h.child w' p hp
    · have hev : st'.evs = st.evs ++ [⟨w, t, child, data⟩] := by rw [← he]
      intro e hm c hec
      rw [hev] at hm
      rcases List.mem_append.mp hm with hm | hm
      · exact h.childEv e hm c hec
      · obtain rfl := List.mem_singleton.mp hm
        dsimp only at hec ⊢
        rcases hc with ⟨ec, _⟩ | ⟨c', line, ls, fs, ec, hpc, _⟩
        · rw [ec] at hec; cases hec
        · rw [ec] at hec; obtain rfl := Option.some.inj hec; exact hpc
    · have hterm : st'.term = st.term := by rw [← he]
      rw [hterm, rootLines_append, termOf_append, rootLines_new, ← h.term]
      by_cases hw : S.parent w = none
      · rw [if_pos hw, if_pos hw, termOf_new, hnew, h.prOut (hroot hw)]
        simp
      · rw [if_neg hw, if_neg hw]
        simp [termOf]

theorem WInv.step {S : Writers} {prog : Nat → List (Nat × Option Bytes)} {st : WState} {log : List (Nat × Bytes)}
    {pend : Nat → List Bytes} {pr : List Bytes} (h : WInv S prog st log pend pr) {root : Nat} {rank : Nat → Nat}
    (hok : WritersOK S root rank) {t : Nat} {st' : WState} (hstep : S.step st t = some st') :
    ∃ log' pend' pr', WInv S prog st' log' pend' pr' := by
  rw [Writers.step] at hstep
  split at hstep
  · next w fs hs =>
    obtain rfl := Option.some.inj hstep
    exact ⟨_, _, _, h.ret hs⟩
  · next w line ls fs hs =>
    split at hstep
    · next p hp => exact h.enter hok hstep (.inr ⟨w, line, ls, fs, rfl, hp, rfl, rfl, hs, rfl⟩)
    · next hp =>
      split at hstep
      · obtain rfl := Option.some.inj hstep
        have := h.put (lines' := ls) hs hp hok [] (by simp)
        rw [List.append_nil] at this
        exact ⟨_, _, _, this⟩
      · next b bs =>
        obtain rfl := Option.some.inj hstep
        exact ⟨_, _, _, h.put (lines' := bs :: ls) hs hp hok [b] (by simp)⟩
  · next hs =>
    split at hstep
    · cases hstep
    · next w data rest htd => exact h.enter hok hstep (.inl ⟨rfl, rfl, hs, htd⟩)

theorem WReach.inv {S : Writers} {prog : Nat → List (Nat × Option Bytes)} {root : Nat} {rank : Nat → Nat}
    (hok : WritersOK S root rank) {st : WState} (hr : Spec.WReach S prog st) :
    ∃ log pend pr, WInv S prog st log pend pr := by
  induction hr with
  | start => exact ⟨_, _, _, WInv.init S prog⟩
  | step _ hs ih =>
    obtain ⟨log, pend, pr, h⟩ := ih
    exact h.step hok hs

/-- the first call in a chain has the smallest rank -/
theorem chain_rank {S : Writers} {root : Nat} {rank : Nat → Nat} (hok : WritersOK S root rank) :
    ∀ (w : Nat) (ws : List Nat), (w :: ws).IsChain (fun a b => S.parent b = some a) →
      ∀ x ∈ ws, rank (S.lock w) < rank (S.lock x)
  | _, [], _, x, hx => by cases hx
  | w, v :: ws, h, x, hx => by
    have h1 : S.parent v = some w := by
      cases h with | cons_cons h1 _ => exact h1
    have h2 : (v :: ws).IsChain (fun a b => S.parent b = some a) := by
      cases h with | cons_cons _ h2 => exact h2
    have h3 := hok.up _ _ h1
    rcases List.mem_cons.mp hx with rfl | hx
    · exact h3
    · exact Nat.lt_trans h3 (chain_rank hok v ws h2 x hx)

theorem exists_min {p : Nat → Prop} (h : ∃ n, p n) : ∃ n, p n ∧ ∀ m < n, ¬ p m := by
  obtain ⟨n, hn⟩ := h
  induction n using Nat.strongRecOn with
  | ind n ih =>
    by_cases hm : ∃ m < n, p m
    · obtain ⟨m, h1, h2⟩ := hm; exact ih m h1 h2
    · exact ⟨n, hn, fun m h1 h2 => hm ⟨m, h1, h2⟩⟩

theorem enter_some {S : Writers} {st : WState} {t w : Nat} {child : Option Nat} {data : Option Bytes}
    {stack : List WFrame} {todo : List (Nat × Option Bytes)} (h : st.held (S.lock w) = none) :
    ∃ st', S.enter st t w child data stack todo = some st' := by
  rw [Writers.enter]; simp [h]

/-- goroutines are never all blocked -/
theorem WInv.progress {S : Writers} {prog : Nat → List (Nat × Option Bytes)} {st : WState} {log : List (Nat × Bytes)}
    {pend : Nat → List Bytes} {pr : List Bytes} (h : WInv S prog st log pend pr) {root : Nat} {rank : Nat → Nat}
    (hok : WritersOK S root rank) (hn : ∃ t, (st.thr t).stack ≠ [] ∨ (st.thr t).todo ≠ []) :
    ∃ t st', S.step st t = some st' := by
  by_cases hh : ∃ t, (st.thr t).stack ≠ []
  · obtain ⟨t0, ht0⟩ := hh
    obtain ⟨n, ⟨t, f, fs, hs, hrk⟩, hmin⟩ := exists_min
      (p := fun n => ∃ t f fs, (st.thr t).stack = f :: fs ∧ rank (S.lock f.w) = n) (by
        cases hs : (st.thr t0).stack with
        | nil => exact absurd hs ht0
        | cons f fs => exact ⟨_, t0, f, fs, hs, rfl⟩)
    obtain ⟨w, lines⟩ := f
    cases lines with
    | nil => exact ⟨t, _, by rw [Writers.step, hs]⟩
    | cons line ls =>
      cases hp : S.parent w with
      | none =>
        cases line with
        | nil => exact ⟨t, _, by rw [Writers.step, hs]; simp only [hp]; rfl⟩
        | cons b bs => exact ⟨t, _, by rw [Writers.step, hs]; simp only [hp]; rfl⟩
      | some p =>
        have hfree : st.held (S.lock p) = none := by
          cases hl : st.held (S.lock p) with
          | none => rfl
          | some t' =>
            exfalso
            obtain ⟨g, hg, hgl⟩ := (h.held _ _).mp hl
            cases hs' : (st.thr t').stack with
            | nil => rw [hs'] at hg; cases hg
            | cons f' fs' =>
              refine hmin (rank (S.lock f'.w)) ?_ ⟨t', f', fs', hs', rfl⟩
              have hup := hok.up _ _ hp
              dsimp only at hrk
              rw [hs'] at hg
              rcases List.mem_cons.mp hg with rfl | hg
              · rw [hgl]; omega
              · have hch := h.chain t'
                rw [hs', List.map_cons] at hch
                have := chain_rank hok _ _ hch g.w (List.mem_map.mpr ⟨g, hg, rfl⟩)
                rw [hgl] at this
                omega
        obtain ⟨st', he⟩ := enter_some (S := S) (t := t) (child := some w) (data := some line)
          (stack := ⟨w, ls⟩ :: fs) (todo := (st.thr t).todo) hfree
        exact ⟨t, st', by rw [Writers.step, hs]; simp only [hp]; exact he⟩
  · obtain ⟨t, ht⟩ := hn
    have hst : ∀ t', (st.thr t').stack = [] := by
      intro t'
      by_cases e : (st.thr t').stack = []
      · exact e
      · exact absurd ⟨t', e⟩ hh
    have hfree : ∀ m, st.held m = none := by
      intro m
      cases hm : st.held m with
      | none => rfl
      | some t' =>
        obtain ⟨f, hf, _⟩ := (h.held m t').mp hm
        rw [hst t'] at hf; cases hf
    rcases ht with ht | ht
    · exact absurd (hst t) ht
    · cases htd : (st.thr t).todo with
      | nil => exact absurd htd ht
      | cons x rest =>
        obtain ⟨w, data⟩ := x
        obtain ⟨st', he⟩ := enter_some (S := S) (t := t) (child := none) (data := data)
          (stack := []) (todo := rest) (hfree (S.lock w))
        exact ⟨t, st', by rw [Writers.step, hst t]; simp only [htd]; exact he⟩

end Bab
