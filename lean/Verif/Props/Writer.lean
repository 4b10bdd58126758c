import Verif.Proof.WriterLocks
/-
C44 to C49: how output is cut into lines, kept whole, cleaned, named and coloured.
-/

namespace Bab
open Spec

/-! ## C44 -/

/-- C44: for every way a command cuts its output into writes, the lines shown are the lines of the whole output, each
once and in order. -/
theorem C44_lines {L : Type} (clean : Bytes → L) (chunks : List Bytes) :
    ∃ ls, IsLines chunks.flatten ls ∧ outputLines clean chunks = ls.map (fun l => clean (visible l)) := by
  obtain ⟨raw, hs, he⟩ := writeAll_split clean chunks [] (by simp)
  refine ⟨_, ⟨raw, _, hs, rfl⟩, ?_⟩
  rw [outputLines, he, (flush_lines clean _).2, List.map_append]

/-- the lines of an output are determined by its bytes -/
theorem C44_lines_unique {bs : Bytes} {ls ls' : List Bytes} (h : IsLines bs ls) (h' : IsLines bs ls') : ls = ls' := by
  obtain ⟨a, r, hs, rfl⟩ := h
  obtain ⟨a', r', hs', rfl⟩ := h'
  obtain ⟨rfl, rfl⟩ := isSplit_unique hs hs'
  rfl

/-- C44: two ways of writing the same bytes give the same lines. -/
theorem C44_chunking {L : Type} (clean : Bytes → L) (chunks chunks' : List Bytes) (h : chunks.flatten = chunks'.flatten) :
    outputLines clean chunks = outputLines clean chunks' := by
  obtain ⟨ls, h1, e1⟩ := C44_lines clean chunks
  obtain ⟨ls', h2, e2⟩ := C44_lines clean chunks'
  rw [h] at h1
  rw [e1, e2, C44_lines_unique h1 h2]

/-- C44: no byte is lost or doubled: the lines, each with its newline, are the output, up to a missing newline at the
end. -/
theorem C44_nothing_lost {bs : Bytes} {ls : List Bytes} (h : IsLines bs ls) :
    (ls.flatMap (· ++ [nl]) = bs ∨ ls.flatMap (· ++ [nl]) = bs ++ [nl]) ∧ ∀ l ∈ ls, nl ∉ l := by
  obtain ⟨full, rest, ⟨h1, h2, h3⟩, rfl⟩ := h
  by_cases hr : rest = []
  · subst hr
    exact ⟨.inl (by simp [h1]), by simpa using h2⟩
  · rw [if_neg hr]
    refine ⟨.inr (by simp [h1]), ?_⟩
    intro l hl
    rcases List.mem_append.mp hl with hl | hl
    · exact h2 l hl
    · rw [List.mem_singleton.mp hl]; exact h3

/-- `a\nb` written as `a`, `\nb` or in one piece -/
example : outputLines id [[97], [10, 98]] = [[97], [98]] ∧ outputLines id [[97, 10, 98]] = [[97], [98]] := by
  decide +kernel

/-! ## C45 -/

/-- C45: at every moment of every schedule the terminal shows whole lines of the writers, each with its prefix, followed by
a piece of the line being written; the lines of each writer are in the order of its output, and nothing is cut off
once no writer is active. -/
theorem C45_whole_lines {S : Writers} {root : Nat} {rank : Nat → Nat} (hok : WritersOK S root rank)
    {prog : Nat → List (Nat × Option Bytes)} {st : WState} (hr : WReach S prog st) :
    ∃ (log : List (Nat × Bytes)) (pending : Bytes),
      (∀ w, Produces (received st.evs w) (linesOf log w) (st.buf w)) ∧
      st.term ++ pending = (log.filter (fun x => (S.parent x.1).isNone)).flatMap (fun x => shown S x.1 x.2) ∧
      (st.held root = none → pending = []) := by
  obtain ⟨log, pend, pr, h⟩ := WReach.inv hok hr
  refine ⟨log, pr.flatten, h.produces, h.term, ?_⟩
  intro hf
  rw [h.prOut, List.flatten_nil]
  intro t f hm hp
  have := (h.held root t).mpr ⟨f, hm, hok.root _ hp⟩
  rw [hf] at this; cases this

/-- C45 for nested blocks: the writer of an item receives the lines of the writers inside it, each whole and in their
order; once the inner writer is idle it has received all of them. -/
theorem C45_nested {S : Writers} {root : Nat} {rank : Nat → Nat} (hok : WritersOK S root rank)
    {prog : Nat → List (Nat × Option Bytes)} {st : WState} (hr : WReach S prog st) {w p : Nat} (hp : S.parent w = some p) :
    ∃ (ls : List Bytes) (pending : List Bytes), Produces (received st.evs w) ls (st.buf w) ∧
      fromChild st.evs w ++ pending.map some = ls.map (fun l => some (shown S w l)) ∧
      (∀ e ∈ st.evs, e.child = some w → e.w = p) ∧ (st.held (S.lock w) = none → pending = []) := by
  obtain ⟨log, pend, pr, h⟩ := WReach.inv hok hr
  refine ⟨linesOf log w, pend w, h.produces w, h.child w p hp, ?_, ?_⟩
  · intro e he hc
    have := h.childEv e he w hc
    rw [hp] at this
    exact (Option.some.inj this).symm
  · intro hf
    refine h.pendOut w ?_
    intro t f hm hfw
    have := (h.held (S.lock w) t).mpr ⟨f, hm, by rw [hfw]⟩
    rw [hf] at this; cases this

theorem received_own {S : Writers} {w t : Nat} {evs : List WEvent}
    (hc : ∀ e ∈ evs, ∀ c, e.child = some c → S.parent c = some e.w) (hno : ∀ c, S.parent c ≠ some w)
    (ht : ∀ e ∈ evs, e.w = w → e.thread = t) :
    received evs w = ((ownCalls evs t).filter (·.1 = w)).map (·.2) := by
  induction evs with
  | nil => rfl
  | cons e evs ih =>
    have ih' := ih (fun e' h' => hc e' (List.mem_cons_of_mem _ h')) (fun e' h' => ht e' (List.mem_cons_of_mem _ h'))
    rw [received] at ih'
    rw [received]
    by_cases hw : e.w = w
    · have h1 := ht e (by simp) hw
      have h2 : e.child = none := by
        cases h2 : e.child with
        | none => rfl
        | some c =>
          have := hc e (by simp) c h2
          rw [hw] at this
          exact absurd this (hno c)
      rw [List.filter_cons_of_pos (by simpa using hw), List.map_cons, ih', ownCalls, ownCalls,
        List.filter_cons_of_pos (by simpa using ⟨h1, h2⟩), List.map_cons, List.filter_cons_of_pos (by simpa using hw)]
      rfl
    · rw [List.filter_cons_of_neg (by simpa using hw), ih', ownCalls, ownCalls]
      by_cases h1 : e.thread = t ∧ e.child = none
      · rw [List.filter_cons_of_pos (by simpa using h1), List.map_cons, List.filter_cons_of_neg (by simpa using hw)]
      · rw [List.filter_cons_of_neg (by simpa using h1)]

/-- C45, when everything has finished: the terminal is a sequence of whole lines, and the lines of a writer that only
goroutine `t` uses are exactly the lines of what `t` wrote to it. -/
theorem C45_finished {S : Writers} {root : Nat} {rank : Nat → Nat} (hok : WritersOK S root rank)
    {prog : Nat → List (Nat × Option Bytes)} {st : WState} (hr : WReach S prog st)
    (hdone : ∀ t, (st.thr t).stack = [] ∧ (st.thr t).todo = []) :
    ∃ log : List (Nat × Bytes),
      st.term = (log.filter (fun x => (S.parent x.1).isNone)).flatMap (fun x => shown S x.1 x.2) ∧
      ∀ w t, (∀ c, S.parent c ≠ some w) → (∀ t' ≠ t, ∀ x ∈ prog t', x.1 ≠ w) →
        Produces (((prog t).filter (·.1 = w)).map (·.2)) (linesOf log w) (st.buf w) := by
  obtain ⟨log, pend, pr, h⟩ := WReach.inv hok hr
  refine ⟨log, ?_, ?_⟩
  · have := h.term
    rw [h.prOut, List.flatten_nil, List.append_nil] at this
    · exact this
    · intro t f hm
      rw [(hdone t).1] at hm; cases hm
  · intro w t hno honly
    have hp := h.produces w
    rw [received_own (t := t) h.childEv hno] at hp
    · have := h.todo t
      rw [(hdone t).2, List.append_nil] at this
      rwa [this] at hp
    · intro e he hew
      by_cases htt : e.thread = t
      · exact htt
      · exfalso
        have hc : e.child = none := by
          cases h2 : e.child with
          | none => rfl
          | some c =>
            have := h.childEv e he c h2
            rw [hew] at this
            exact absurd this (hno c)
        refine honly e.thread htt (e.w, e.data) ?_ hew
        rw [← h.todo e.thread]
        refine List.mem_append_left _ ?_
        rw [ownCalls]
        exact List.mem_map.mpr ⟨e, List.mem_filter.mpr ⟨he, by simpa using hc⟩, rfl⟩

/-- C45: the mutexes of nested blocks never block each other for good: some goroutine can always go on. -/
theorem C45_no_deadlock {S : Writers} {root : Nat} {rank : Nat → Nat} (hok : WritersOK S root rank)
    {prog : Nat → List (Nat × Option Bytes)} {st : WState} (hr : WReach S prog st)
    (hn : ∃ t, (st.thr t).stack ≠ [] ∨ (st.thr t).todo ≠ []) : ∃ t st', S.step st t = some st' := by
  obtain ⟨log, pend, pr, h⟩ := WReach.inv hok hr
  exact h.progress hok hn

theorem sched_reach {S : Writers} {prog : Nat → List (Nat × Option Bytes)} : ∀ (ts : List Nat) {st : WState},
    WReach S prog st → WReach S prog (S.sched ts st)
  | [], _, h => h
  | t :: ts, st, h => by
    rw [Writers.sched]
    refine sched_reach ts ?_
    cases hs : S.step st t with
    | none => exact h
    | some st' => exact h.step hs

namespace Sample

/-- writers 0 and 1 on the terminal, 2 and 3 inside 0 -/
def wsys : Writers where
  pre := fun w => [48 + w.toUInt8]
  clean := fun _ l => l
  parent := fun w => if w = 2 ∨ w = 3 then some 0 else none
  lock := fun w => if w = 2 ∨ w = 3 then 1 else 0

/-- goroutine 0 writes `a\nb` to 2, goroutine 1 writes `c\n` to 3, goroutine 2 writes `d\n` to 1 -/
def wprog : Nat → List (Nat × Option Bytes)
  | 0 => [(2, some [97, 10, 98]), (2, none)]
  | 1 => [(3, some [99, 10]), (3, none)]
  | 2 => [(1, some [100]), (1, some [10]), (1, none)]
  | _ => []

theorem wsys_ok : WritersOK wsys 0 id := by
  constructor
  · intro w hw
    simp only [wsys] at hw ⊢
    split at hw
    · cases hw
    · next h => rw [if_neg h]
  · intro w p hp
    simp only [wsys] at hp ⊢
    split at hp
    · next h => obtain rfl := Option.some.inj hp; rw [if_pos h]; simp
    · cases hp

/-- some schedule; the lines stay whole although the goroutines alternate at every byte -/
example : (wsys.sched (List.flatten (List.replicate 60 [0, 1, 2])) (Writers.init wprog)).term
    = [48, 50, 97, 10, 49, 100, 10, 48, 51, 99, 10, 48, 50, 98, 10] := by decide +kernel

example : WReach wsys wprog (wsys.sched (List.flatten (List.replicate 60 [0, 1, 2])) (Writers.init wprog)) :=
  sched_reach _ .start

end Sample

/-! ## C46 -/

/-- C46: what is shown of a line redrawn with carriage returns is the segment after the last one. -/
theorem C46_last_segment (before last : Bytes) (h : cr ∉ last) : resolveCR (before ++ [cr] ++ last) = last := by
  rw [resolveCR_eq, List.append_assoc, List.singleton_append, visible_cr h]

/-- C46: a line without carriage returns is shown in full. -/
theorem C46_plain_partial (line : Bytes) (h : cr ∉ line) : resolveCR line = line := by
  rw [resolveCR_eq, visible_noCR h]

/-- C46 fails for lines ended by CRLF: whatever the text, an empty line is shown. -/
theorem C46_crlf_lost (text : Bytes) : resolveCR (text ++ [cr]) = [] := by
  have := C46_last_segment text [] (by simp)
  simpa using this

/-- the command printed `hi\r\n` and the line shown is empty -/
example : outputLines id [[104, 105, 13, 10]] = [[]] := by decide +kernel

/-! ## C47 -/

/-- C47: whatever the library makes of the escape sequences, a cleaned line has no control character below `0x20`
other than tab and escape. -/
theorem C47_no_control_partial (dec : Decoder) (line : Str) : ∀ c ∈ sanitizeLine dec line, ¬ isC0 c := by
  intro c hc
  rw [sanitizeLine] at hc
  split at hc <;> exact (mem_stripControlChars.mp hc).2

/-- C47: an escape character survives only as part of a colour sequence. -/
theorem C47_only_colours {dec : Decoder} (hl : Lawful dec) (line : Str) :
    ∃ ps : List Str, sanitizeLine dec line = ps.flatten ∧
      ∀ p ∈ ps, '\x1b' ∉ p ∨ ∃ q, IsColour dec q ∧ p = q.filter (fun c => !isUnsafeControl c) := by
  rw [sanitizeLine]
  split
  · next h =>
    refine ⟨[stripControlChars line], by simp, ?_⟩
    intro p hp
    rw [List.mem_singleton.mp hp]
    left
    intro hm
    have := (mem_stripControlChars.mp hm).1
    simp only [Bool.and_eq_true, Bool.not_eq_true', List.contains_eq_mem, decide_eq_false_iff_not] at h
    exact h.1 this
  · obtain ⟨ps, he, hp⟩ := sanitizeLoop_pieces hl (line.length + 1) line
    rw [he, stripControlChars_eq, flatten_filter]
    refine ⟨_, rfl, ?_⟩
    intro p hm
    obtain ⟨q, hq, rfl⟩ := List.mem_map.mp hm
    rcases hp q hq with h | h
    · exact .inl (fun hh => h (List.mem_filter.mp hh).1)
    · exact .inr ⟨q, h, rfl⟩

/-- C47: text without escape sequences loses its control characters and nothing else. -/
theorem C47_text (dec : Decoder) (line : Str) (h1 : '\x1b' ∉ line) (h2 : '\x9b' ∉ line) :
    sanitizeLine dec line = line.filter (fun c => !isUnsafeControl c) := by
  rw [sanitizeLine, if_pos (by simp [h1, h2]), stripControlChars_eq]

/-- C47: cleaning twice changes nothing more, if the library reads sequences as the standard says (`Regular`). -/
theorem C47_idempotent {dec : Decoder} (hr : Regular dec) (line : Str) :
    sanitizeLine dec (sanitizeLine dec line) = sanitizeLine dec line := by
  have plain : ∀ s, stripControlChars (stripControlChars s) = stripControlChars s := by
    intro s
    rw [stripControlChars_eq, stripControlChars_eq, List.filter_filter]
    simp
  have key : ∀ s, Tidy dec s → sanitizeLine dec (stripControlChars s) = stripControlChars s := by
    intro s hs
    rw [sanitizeLine]
    split
    · exact plain s
    · rw [loop_keeps hr _ _ (by rw [stripControlChars_eq]; exact tidy_filter hs) (Nat.lt_succ_self _), plain]
  by_cases h : (!line.contains '\x1b' && !line.contains '\x9b') = true
  · have e : sanitizeLine dec line = stripControlChars line := by rw [sanitizeLine, if_pos h]
    simp only [Bool.and_eq_true, Bool.not_eq_true', List.contains_eq_mem, decide_eq_false_iff_not] at h
    rw [e, sanitizeLine, if_pos, plain]
    simp only [Bool.and_eq_true, Bool.not_eq_true', List.contains_eq_mem, decide_eq_false_iff_not]
    exact ⟨fun hm => h.1 (mem_stripControlChars.mp hm).1, fun hm => h.2 (mem_stripControlChars.mp hm).1⟩
  · have e : sanitizeLine dec line = stripControlChars (sanitizeLoop dec (line.length + 1) 0 line) := by rw [sanitizeLine, if_neg h]
    rw [e]
    exact key _ (loop_tidy hr _ _)

/-- C47: the same for every text without the escape character, so the character U+009B (a control sequence introducer) is not
removed, although line 19 looks for it. -/
theorem C47_no_escape {dec : Decoder} (hr : Regular dec) (line : Str) (h : '\x1b' ∉ line) :
    sanitizeLine dec line = line.filter (fun c => !isUnsafeControl c) := by
  rw [sanitizeLine]
  split
  · rw [stripControlChars_eq]
  · rw [loop_keeps hr _ _ _ (Nat.lt_succ_self _), stripControlChars_eq]
    have : Tidy dec (line ++ []) := tidy_text (fun c hc => by
      simp only [introduces, decide_eq_false_iff_not]
      rintro rfl
      exact h hc) .nil
    rwa [List.append_nil] at this

/-- C47 fails for the one-character form of the control sequence introducer: this line clears the screen on a terminal that
knows it, and it passes unchanged. -/
theorem C47_csi_survives {dec : Decoder} (hr : Regular dec) :
    sanitizeLine dec ['\x9b', '2', 'J'] = ['\x9b', '2', 'J'] := by
  rw [C47_no_escape hr _ (by decide)]
  decide

/-- C47 fails for the control characters above `0x7f`: a line that sets the window title with the one-character forms of
OSC and ST passes unchanged, and so does DEL. -/
theorem C47_c1_survives (dec : Decoder) :
    sanitizeLine dec ['\x9d', '0', ';', 'x', '\x9c', '\x7f'] = ['\x9d', '0', ';', 'x', '\x9c', '\x7f'] := by
  rw [C47_text dec _ (by decide) (by decide)]
  decide

/-! The last step, `cleanLine`. With `color: false` everything is left to the library (`ansi.Strip`), about which only this
is assumed: -/

namespace Spec

/-- the library removes escape sequences: it leaves no escape character, and it does not change text without them -/
structure Strips (strip : Str → Str) : Prop where
  gone : ∀ line, '\x1b' ∉ strip line
  kept : ∀ line, (∀ c ∈ line, c ≠ '\x1b' ∧ c.toNat < 128) → strip line = line

end Spec

/-- C47: with `color: false` no escape character is left, so also no colour. -/
theorem C47_colour_off (dec : Decoder) {strip : Str → Str} (hs : Spec.Strips strip) (line : Str) : '\x1b' ∉ cleanLine dec strip line true := by
  rw [cleanLine, if_pos rfl]
  exact hs.gone line

/-- C47: with `color: false` as without, printable text is not changed. -/
theorem C47_clean_text (dec : Decoder) {strip : Str → Str} (hs : Spec.Strips strip) (line : Str) (noColor : Bool)
    (h : ∀ c ∈ line, c.toNat < 127 ∧ (32 ≤ c.toNat ∨ c = '\t')) : cleanLine dec strip line noColor = line := by
  have hne : ∀ c ∈ line, c ≠ '\x1b' := by
    rintro c hc rfl
    have := (h _ hc).2
    revert this; decide
  cases noColor with
  | true => rw [cleanLine, if_pos rfl]; exact hs.kept line (fun c hc => ⟨hne c hc, by have := (h c hc).1; omega⟩)
  | false =>
    rw [cleanLine, if_neg (by decide), C47_text dec line (fun hm => hne _ hm rfl)
      (fun hm => absurd (h _ hm).1 (by decide)), List.filter_eq_self]
    intro c hc
    have h1 := (h c hc).2
    simp only [isUnsafeControl, Bool.not_eq_true', Bool.and_eq_false_iff, decide_eq_false_iff_not]
    rcases h1 with h1 | h1
    · exact Or.inl (Or.inl (by omega))
    · exact Or.inl (Or.inr (by simp [h1]))

/-- C47: without `color: false` colours stay and control characters go. -/
theorem C47_colour_on (dec : Decoder) (strip : Str → Str) (line : Str) : ∀ c ∈ cleanLine dec strip line false, ¬ isC0 c := by
  rw [cleanLine, if_neg (by decide)]
  exact C47_no_control_partial dec line

/-- C47 fails with `color: false`, if the library does only what it promises: other control characters, here the bell and
backspaces that erase what was written, pass unchanged. -/
theorem C47_colour_off_unsafe (dec : Decoder) {strip : Str → Str} (hs : Spec.Strips strip) :
    cleanLine dec strip ['o', 'k', '\x07', '\x08', '\x08'] true = ['o', 'k', '\x07', '\x08', '\x08'] ∧
    cleanLine dec strip ['o', 'k', '\x07', '\x08', '\x08'] false = ['o', 'k'] := by
  refine ⟨?_, ?_⟩
  · rw [cleanLine, if_pos rfl]
    exact hs.kept _ (by decide)
  · rw [cleanLine, if_neg (by decide), C47_text dec _ (by decide) (by decide)]
    decide

/-- there are such functions: dropping the escape characters alone is one -/
example : Spec.Strips (fun l => l.filter (· ≠ '\x1b')) where
  gone := by simp
  kept := by
    intro line h
    rw [List.filter_eq_self]
    intro c hc
    simpa using (h c hc).1

namespace Sample

/-- characters of parameters -/
def isParam (c : Char) : Bool := 0x20 ≤ c.toNat && c.toNat ≤ 0x3f

/-- a decoder for the control sequences of the standard: the introducer, parameters, and a final character -/
def dec2 : Decoder := fun _ input =>
  match input with
  | '\x1b' :: '[' :: rest =>
    match rest.dropWhile isParam with
    | f :: _ =>
      if 0x40 ≤ f.toNat ∧ f.toNat ≤ 0x7e then ⟨'\x1b' :: '[' :: rest.takeWhile isParam ++ [f], f = 'm', 0⟩
      else ⟨'\x1b' :: '[' :: rest.takeWhile isParam, false, 0⟩
    | [] => ⟨'\x1b' :: '[' :: rest.takeWhile isParam, false, 1⟩
  | c :: _ => ⟨[c], false, 0⟩
  | [] => ⟨[], false, 0⟩

theorem dec2_regular : Regular dec2 := by
  have tw : ∀ (l : Str) c, c ∈ l.takeWhile isParam → isParam c = true := fun l c hc =>
    List.all_eq_true.mp (List.all_takeWhile (l := l) (p := isParam)) c hc
  have pr : ∀ (l : Str) c, c ∈ l.takeWhile isParam → introduces c = false ∧ isUnsafeControl c = false := by
    intro l c hc
    have := tw l c hc
    simp only [isParam, Bool.and_eq_true, decide_eq_true_eq] at this
    refine ⟨?_, ?_⟩
    · simp only [introduces, decide_eq_false_iff_not]
      rintro rfl
      exact absurd this (by decide)
    · simp only [isUnsafeControl, Bool.and_eq_false_iff, decide_eq_false_iff_not]
      exact Or.inl (Or.inl (by omega))
  have fin : ∀ f : Char, 0x40 ≤ f.toNat ∧ f.toNat ≤ 0x7e → introduces f = false := by
    intro f hf
    simp only [introduces, decide_eq_false_iff_not]
    rintro rfl
    exact absurd hf (by decide)
  have tail : ∀ input, ∀ c ∈ (dec2 0 input).seq.tail, introduces c = false := by
    intro input c hc
    unfold dec2 at hc
    split at hc
    · next rest =>
      split at hc
      · next f r _ =>
        split at hc
        · next hf =>
          simp only [List.cons_append, List.tail_cons, List.mem_cons, List.mem_append, List.not_mem_nil, or_false] at hc
          rcases hc with rfl | hc | rfl
          · decide
          · exact (pr rest c hc).1
          · exact fin _ hf
        · simp only [List.tail_cons, List.mem_cons] at hc
          rcases hc with rfl | hc
          · decide
          · exact (pr rest c hc).1
      · simp only [List.tail_cons, List.mem_cons] at hc
        rcases hc with rfl | hc
        · decide
        · exact (pr rest c hc).1
    · cases hc
    · cases hc
  constructor
  · constructor
    · intro input hi
      unfold dec2
      split
      · next rest =>
        have e := List.takeWhile_append_dropWhile (p := isParam) (l := rest)
        split
        · next f r hr =>
          rw [hr] at e
          split
          · refine ⟨by simp, ⟨r, ?_⟩⟩
            conv_rhs => rw [← e]
            simp
          · refine ⟨by simp, ⟨f :: r, ?_⟩⟩
            conv_rhs => rw [← e]
            simp
        · next hr =>
          rw [hr] at e
          refine ⟨by simp, ⟨[], ?_⟩⟩
          conv_rhs => rw [← e]
          simp
      · exact ⟨by simp, ⟨_, rfl⟩⟩
      · exact absurd rfl hi
    · intro input
      unfold dec2
      split
      · next rest =>
        split
        · split <;> exact Or.inl rfl
        · next hr =>
          have e := List.takeWhile_append_dropWhile (p := isParam) (l := rest)
          rw [hr, List.append_nil] at e
          exact Or.inr (by rw [e])
      · exact Or.inl rfl
      · exact Or.inl rfl
    · intro input he c hc
      have ht := tail input c
      generalize (dec2 0 input).seq = q at *
      cases q with
      | nil => cases hc
      | cons d q =>
        rcases List.mem_cons.mp hc with rfl | hc
        · simp only [introduces, decide_eq_false_iff_not]
          rintro rfl
          simp [hasEscPrefix] at he
        · exact ht hc
    · intro input _ hm
      exact absurd (tail input _ hm) (by decide)
  · intro input h1 h2
    clear h1
    have shape : ∃ (rest r : Str), rest.dropWhile isParam = 'm' :: r ∧ dec2 0 input = ⟨'\x1b' :: '[' :: rest.takeWhile isParam ++ ['m'], true, 0⟩ := by
      revert h2
      unfold dec2
      split
      · next rest =>
        split
        · next f r hr =>
          split
          · intro h
            obtain rfl : f = 'm' := by simpa using h
            exact ⟨rest, r, hr, by simp⟩
          · intro h; cases h
        · intro h; cases h
      · intro h; cases h
      · intro h; cases h
    obtain ⟨rest, r, hr, e⟩ := shape
    rw [e]
    dsimp only
    refine ⟨fun t => ?_, ?_⟩
    · have e1 : (rest.takeWhile isParam ++ 'm' :: t).takeWhile isParam = rest.takeWhile isParam := by
        rw [List.takeWhile_append_of_pos (tw rest)]
        simp [isParam]
      have e2 : (rest.takeWhile isParam ++ 'm' :: t).dropWhile isParam = 'm' :: t := by
        rw [List.dropWhile_append_of_pos (tw rest)]
        simp [isParam]
      simp only [List.cons_append, List.append_assoc, List.nil_append]
      unfold dec2
      split
      · next q hq =>
        obtain rfl : List.takeWhile isParam rest ++ 'm' :: t = q := by injection hq with _ h; injection h
        rw [e2]
        dsimp only
        rw [if_pos (by decide), e1]
        simp
      · next hn hq =>
        injection hq with h1 h2
        exact absurd h2.symm (hn _ h1.symm)
      · next hq => cases hq
    · intro c hc
      simp only [List.cons_append, List.mem_cons, List.mem_append, List.not_mem_nil, or_false] at hc
      rcases hc with rfl | rfl | hc | rfl
      · decide
      · decide
      · exact (pr rest c hc).2
      · decide

example : sanitizeLine dec2 ['\x9b', '2', 'J'] = ['\x9b', '2', 'J'] := C47_csi_survives dec2_regular

/-- colours stay, other sequences go, and cleaning again changes nothing -/
example : sanitizeLine dec2 "\x1b[2J\x07a\x1b[1;31mb\x1b[0m".toList = "a\x1b[1;31mb\x1b[0m".toList ∧
    sanitizeLine dec2 "a\x1b[1;31mb\x1b[0m".toList = "a\x1b[1;31mb\x1b[0m".toList := by decide +kernel

/-- `IsColour` is about the last character only: a sequence with a private parameter, here one which changes what the keys of
the terminal send, is kept as well -/
example : sanitizeLine dec2 "\x1b[>4;2m".toList = "\x1b[>4;2m".toList := by decide +kernel

/-- a decoder that knows one colour sequence and one that sets the title of the window, for the examples -/
def dec1 : Decoder := fun _ input =>
  match input with
  | '\x1b' :: '[' :: 'm' :: _ => ⟨['\x1b', '[', 'm'], true, 0⟩
  | '\x1b' :: ']' :: '2' :: ';' :: c :: '\x1b' :: '\\' :: _ => ⟨['\x1b', ']', '2', ';', c, '\x1b', '\\'], false, 0⟩
  | c :: _ => ⟨[c], false, 0⟩
  | [] => ⟨[], false, 0⟩

theorem dec1_lawful : Lawful dec1 := by
  constructor
  · intro input hi
    rw [dec1.eq_def]
    split
    · exact ⟨by simp, _, rfl⟩
    · exact ⟨by simp, _, rfl⟩
    · exact ⟨by simp, _, rfl⟩
    · exact absurd rfl hi
  · intro input
    rw [dec1.eq_def]
    split <;> exact Or.inl rfl
  · intro input
    rw [dec1.eq_def]
    split
    · intro h; cases h
    · intro h; cases h
    · next c _ _ _ =>
      intro h d hd
      obtain rfl := List.mem_singleton.mp hd
      simp only [introduces, decide_eq_false_iff_not]
      rintro rfl
      cases h
    · intro _ d hd; cases hd
  · intro input
    rw [dec1.eq_def]
    split
    · intro _; decide
    · intro h; cases h
    · intro _ h; cases h
    · intro _ h; cases h

example : sanitizeLine dec1 ['a', '\x07', '\x1b', '[', 'm', '\x1b', ']', '2', ';', 't', '\x1b', '\\', '\x1b', 'c'] =
    ['a', '\x1b', '[', 'm', 'c'] := by
  decide +kernel

end Sample

/-! ## C48 -/

theorem repr_ne_nil (n : Nat) : (Nat.repr n).toList ≠ [] := by
  rw [Nat.repr, String.toList_ofList]
  exact Nat.toDigits_ne_nil

theorem repr_no_dot (n : Nat) : '.' ∉ (Nat.repr n).toList := by
  rw [Nat.repr, String.toList_ofList]
  intro h
  have := Nat.isDigit_of_mem_toDigits (b := 10) (by omega) (by omega) h
  exact absurd this (by decide)

theorem repr_inj {m n : Nat} (h : (Nat.repr m).toList = (Nat.repr n).toList) : m = n := by
  rw [Nat.repr, Nat.repr, String.toList_ofList, String.toList_ofList] at h
  have := congrArg (fun d => Nat.ofDigitChars 10 d 0) h
  simpa [Nat.ofDigitChars_toDigits] using this

theorem dot_split {a b x y : Str} (ha : '.' ∉ a) (hb : '.' ∉ b) (h : a ++ '.' :: x = b ++ '.' :: y) : a = b ∧ x = y := by
  induction a generalizing b with
  | nil =>
    cases b with
    | nil => exact ⟨rfl, by simpa using h⟩
    | cons c b =>
      simp only [List.nil_append, List.cons_append, List.cons.injEq] at h
      exact absurd (by rw [← h.1]; exact List.mem_cons_self) hb
  | cons c a ih =>
    cases b with
    | nil =>
      simp only [List.nil_append, List.cons_append, List.cons.injEq] at h
      exact absurd (by simp [h.1]) ha
    | cons d b =>
      simp only [List.cons_append, List.cons.injEq] at h
      simp only [List.mem_cons, not_or] at ha hb
      obtain ⟨e1, e2⟩ := ih ha.2 hb.2 h.2
      exact ⟨by rw [h.1, e1], e2⟩

theorem pathToKey_cons (n m : Nat) (r : List Nat) :
    pathToKey (n :: m :: r) = (Nat.repr n).toList ++ '.' :: pathToKey (m :: r) := by
  simp [pathToKey, List.intercalate]

theorem pathToKey_one (n : Nat) : pathToKey [n] = (Nat.repr n).toList := by
  simp [pathToKey, List.intercalate]

/-- C48: different places in the tree of parallel items have different keys. -/
theorem C48_keys_distinct : ∀ (p q : List Nat), pathToKey p = pathToKey q → p = q
  | [], [], _ => rfl
  | [], [m], h => by
    rw [pathToKey_one] at h
    exact absurd h.symm (repr_ne_nil m)
  | [], m :: m' :: r, h => by
    rw [pathToKey_cons] at h
    simp [pathToKey, List.intercalate] at h
  | [n], [], h => by
    rw [pathToKey_one] at h
    exact absurd h (repr_ne_nil n)
  | n :: n' :: r, [], h => by
    rw [pathToKey_cons] at h
    simp [pathToKey, List.intercalate] at h
  | [n], [m], h => by
    rw [pathToKey_one, pathToKey_one] at h
    rw [repr_inj h]
  | [n], m :: m' :: r, h => by
    exfalso
    rw [pathToKey_one, pathToKey_cons] at h
    exact repr_no_dot n (by rw [h]; simp)
  | n :: n' :: r, [m], h => by
    exfalso
    rw [pathToKey_one, pathToKey_cons] at h
    exact repr_no_dot m (by rw [← h]; simp)
  | n :: n' :: r, m :: m' :: r', h => by
    rw [pathToKey_cons, pathToKey_cons] at h
    obtain ⟨e1, e2⟩ := dot_split (repr_no_dot n) (repr_no_dot m) h
    rw [repr_inj e1, C48_keys_distinct (n' :: r) (m' :: r') e2]

example : pathToKey [1, 12] = "1.12".toList ∧ pathToKey [11, 2] = "11.2".toList := by decide +kernel

/-! ## C49 -/

theorem dimTimes_le (n x : Nat) : dimTimes n x ≤ x := by
  induction n generalizing x with
  | zero => exact Nat.le_refl _
  | succ n ih => exact Nat.le_trans (ih _) (by rw [dimStep]; omega)

/-- dimming keeps a colour inside the colour cube and never brightens a component -/
theorem C49_dim (code steps : Nat) (h1 : 16 ≤ code) (h2 : code ≤ 231) :
    16 ≤ dimColor code steps ∧ dimColor code steps ≤ code := by
  rw [dimColor, if_neg (by omega)]
  dsimp only
  have hr := dimTimes_le steps ((code - 16) / 36)
  have hg := dimTimes_le steps ((code - 16) % 36 / 6)
  have hb := dimTimes_le steps ((code - 16) % 6)
  generalize dimTimes steps ((code - 16) / 36) = r at *
  generalize dimTimes steps ((code - 16) % 36 / 6) = g at *
  generalize dimTimes steps ((code - 16) % 6) = b at *
  have h3 : (code - 16) % 36 % 6 = (code - 16) % 6 := Nat.mod_mod_of_dvd _ ⟨6, rfl⟩
  have h4 : 16 + 36 * r + 6 * g + b ≤ code := by omega
  rw [Nat.mod_eq_of_lt (by omega)]
  omega

/-- C49: at any place and depth the colour is an index of the colour cube of the 256-colour palette. -/
theorem C49_palette (path : List Nat) : 16 ≤ colorForPath path ∧ colorForPath path ≤ 231 := by
  have hall : ∀ i, i < parallelBaseColors.length → 16 ≤ parallelBaseColors.getD i 0 ∧ parallelBaseColors.getD i 0 ≤ 231 := by
    decide
  cases path with
  | nil => decide
  | cons i rest =>
    have hb := hall (i % parallelBaseColors.length) (Nat.mod_lt _ (by decide))
    rw [colorForPath]
    split
    · exact hb
    · have := C49_dim _ rest.length hb.1 hb.2
      omega

example : colorForPath [3] = 220 ∧ colorForPath [3, 0] = 136 ∧ colorForPath [11, 0, 0] = 58 := by decide +kernel

end Bab
