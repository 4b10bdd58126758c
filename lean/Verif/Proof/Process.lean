import Verif.Model.Process
import Mathlib.Data.List.Nodup

/- What holds in every state of the machine that can be reached. -/

namespace Bab.Proc

structure Inv (h : Host) (os : OS) : Prop where
  nodup : (os.procs.map P.pid).Nodup
  root : ∀ k c, os.cmds[k]? = some c → c.phase = .waiting →
    ∃ r ∈ os.procs, r.pid = c.pid ∧ r.cmd = some k ∧ (h.unix = true → r.moved = false ∧ r.pgid = r.pid)
  grp : ∀ k c, os.cmds[k]? = some c → c.phase = .waiting → ∀ q ∈ os.procs, q.pgid = c.pid → q.cmd = some k
  mem : ∀ q ∈ os.procs, ∀ k, q.cmd = some k → ∃ c, os.cmds[k]? = some c ∧
    (h.unix = true → q.moved = false → q.pgid = c.pid ∧ (c.told = true → q.dead = true))
  out : ∀ q ∈ os.procs, q.cmd ≠ none → q.pid ≠ h.grp ∧ (h.unix = true → q.pgid ≠ h.grp)
  shut : ∀ q ∈ os.procs, q.dead = true → q.pipe = false
  win : h.unix = false → ∀ q ∈ os.procs, q.cmd ≠ none → q.moved = false → q.pgid = h.grp

theorem eq_of_pid {l : List P} (hn : (l.map P.pid).Nodup) {a b : P} (ha : a ∈ l) (hb : b ∈ l) (h : a.pid = b.pid) :
    a = b := List.inj_on_of_nodup_map hn ha hb h

/-- a change of single processes that keeps what matters -/
structure Mild (f : P → P) : Prop where
  pid : ∀ q, (f q).pid = q.pid
  cmd : ∀ q, (f q).cmd = q.cmd
  pgid : ∀ q, (f q).pgid = q.pgid ∨ (f q).pgid = q.pid
  still : ∀ q, (f q).moved = false → q.moved = false ∧ (f q).pgid = q.pgid
  lead : ∀ q, q.pgid = q.pid → (f q).moved = q.moved ∧ (f q).pgid = q.pgid
  dead : ∀ q, q.dead = true → (f q).dead = true
  shut : ∀ q, (q.dead = true → q.pipe = false) → (f q).dead = true → (f q).pipe = false

theorem Mild.at {f : P → P} (hf : Mild f) (c : P → Prop) [DecidablePred c] : Mild fun q => if c q then f q else q := by
  constructor <;> intro q <;> split
  · exact hf.pid q
  · rfl
  · exact hf.cmd q
  · rfl
  · exact hf.pgid q
  · exact .inl rfl
  · exact hf.still q
  · exact fun h => ⟨h, rfl⟩
  · exact hf.lead q
  · exact fun _ => ⟨rfl, rfl⟩
  · exact hf.dead q
  · exact id
  · exact hf.shut q
  · exact id

theorem mild_kill : Mild P.kill := by
  constructor <;> intro q <;> simp [P.kill]

theorem mild_regroup : Mild P.regroup := by
  constructor <;> intro q <;> simp only [P.regroup] <;> split <;> simp_all

theorem mild_close : Mild fun q => { q with pipe := false } := by
  constructor <;> intro q <;> simp

theorem mild_cont : Mild fun q => { q with stopped := false } := by
  constructor <;> intro q <;> simp

theorem mild_read (h : Host) : Mild fun q => (ttyRead h q).1 := by
  constructor <;> intro q <;> simp only [ttyRead] <;> split <;> simp_all

theorem Inv.map {h : Host} {os : OS} (hi : Inv h os) {f : P → P} (hf : Mild f) :
    Inv h { os with procs := os.procs.map f } := by
  refine ⟨?_, ?_, ?_, ?_, ?_, ?_, ?_⟩
  · have : (os.procs.map f).map P.pid = os.procs.map P.pid := by
      rw [List.map_map]; exact List.map_congr_left fun q _ => hf.pid q
    simpa only [this] using hi.nodup
  · intro k c hk hw
    obtain ⟨r, hr, hp, hc, hu⟩ := hi.root k c hk hw
    refine ⟨f r, List.mem_map_of_mem hr, (hf.pid r).trans hp, (hf.cmd r).trans hc, fun hx => ?_⟩
    obtain ⟨h1, h2⟩ := hf.lead r (hu hx).2
    exact ⟨h1.trans (hu hx).1, by rw [h2, hf.pid]; exact (hu hx).2⟩
  · intro k c hk hw q' hq' hg
    obtain ⟨q, hq, rfl⟩ := List.mem_map.1 hq'
    rw [hf.cmd]
    rcases hf.pgid q with e | e
    · exact hi.grp k c hk hw q hq (e.symm.trans hg)
    · obtain ⟨r, hr, hp, hc, _⟩ := hi.root k c hk hw
      have : q = r := eq_of_pid hi.nodup hq hr ((e.symm.trans hg).trans hp.symm)
      rw [this]; exact hc
  · intro q' hq' k hk
    obtain ⟨q, hq, rfl⟩ := List.mem_map.1 hq'
    rw [hf.cmd] at hk
    obtain ⟨c, hc, hu⟩ := hi.mem q hq k hk
    refine ⟨c, hc, fun hx hm => ?_⟩
    obtain ⟨h1, h2⟩ := hf.still q hm
    exact ⟨h2.trans (hu hx h1).1, fun ht => hf.dead q ((hu hx h1).2 ht)⟩
  · intro q' hq' hk
    obtain ⟨q, hq, rfl⟩ := List.mem_map.1 hq'
    rw [hf.cmd] at hk
    refine ⟨by rw [hf.pid]; exact (hi.out q hq hk).1, fun hx => ?_⟩
    rcases hf.pgid q with e | e
    · rw [e]; exact (hi.out q hq hk).2 hx
    · rw [e]; exact (hi.out q hq hk).1
  · intro q' hq' hd
    obtain ⟨q, hq, rfl⟩ := List.mem_map.1 hq'
    exact hf.shut q (hi.shut q hq) hd
  · intro hx q' hq' hk hm
    obtain ⟨q, hq, rfl⟩ := List.mem_map.1 hq'
    rw [hf.cmd] at hk
    obtain ⟨h1, h2⟩ := hf.still q hm
    exact h2.trans (hi.win hx q hq hk h1)

theorem Inv.set {h : Host} {os : OS} (hi : Inv h os) {k : Nat} {c c' : C} (hk : os.cmds[k]? = some c)
    (hp : c'.pid = c.pid) (hw : c'.phase = .waiting → c.phase = .waiting)
    (ht : c'.told = true → c.told = true ∨
      (h.unix = true → ∀ q ∈ os.procs, q.cmd = some k → q.moved = false → q.dead = true)) :
    Inv h { os with cmds := os.cmds.set k c' } := by
  have hlt : k < os.cmds.length := (List.getElem?_eq_some_iff.1 hk).1
  have get : ∀ j d, (os.cmds.set k c')[j]? = some d → (j = k ∧ d = c') ∨ (j ≠ k ∧ os.cmds[j]? = some d) := by
    intro j d hd
    rw [List.getElem?_set] at hd
    by_cases e : k = j
    · subst e
      simp only [if_true, hlt, Option.some.injEq] at hd
      exact .inl ⟨rfl, hd.symm⟩
    · rw [if_neg e] at hd
      exact .inr ⟨fun x => e x.symm, hd⟩
  refine ⟨hi.nodup, ?_, ?_, ?_, hi.out, hi.shut, hi.win⟩
  · intro j d hd hph
    rcases get j d hd with ⟨rfl, rfl⟩ | ⟨_, hd⟩
    · rw [hp]; exact hi.root j c hk (hw hph)
    · exact hi.root j d hd hph
  · intro j d hd hph
    rcases get j d hd with ⟨rfl, rfl⟩ | ⟨_, hd⟩
    · rw [hp]; exact hi.grp j c hk (hw hph)
    · exact hi.grp j d hd hph
  · intro q hq j hj
    obtain ⟨d, hd, hu⟩ := hi.mem q hq j hj
    by_cases e : k = j
    · subst e
      rw [hk] at hd
      obtain rfl := Option.some.inj hd
      refine ⟨c', ?_, fun hx hm => ⟨(hu hx hm).1.trans hp.symm, fun htt => ?_⟩⟩
      · show (os.cmds.set k c')[k]? = some c'
        rw [List.getElem?_set]; simp [hlt]
      · rcases ht htt with h1 | h1
        · exact (hu hx hm).2 h1
        · exact h1 hx q hq hj hm
    · refine ⟨d, ?_, hu⟩
      show (os.cmds.set k c')[j]? = some d
      rw [List.getElem?_set, if_neg e]; exact hd

theorem Inv.filter {h : Host} {os : OS} (hi : Inv h os) {pid : Nat}
    (hr : ∀ c ∈ os.cmds, c.phase = .waiting → c.pid ≠ pid) :
    Inv h { os with procs := os.procs.filter fun q => q.pid ≠ pid } := by
  have sub : ∀ q, q ∈ os.procs.filter (fun q => q.pid ≠ pid) → q ∈ os.procs := fun q hq => (List.mem_filter.1 hq).1
  refine ⟨hi.nodup.sublist (List.filter_sublist.map _), ?_, fun k c hk hw q hq => hi.grp k c hk hw q (sub q hq),
    fun q hq => hi.mem q (sub q hq), fun q hq => hi.out q (sub q hq), fun q hq => hi.shut q (sub q hq),
    fun hx q hq => hi.win hx q (sub q hq)⟩
  intro k c hk hw
  obtain ⟨r, hrm, hp, hc, hu⟩ := hi.root k c hk hw
  refine ⟨r, List.mem_filter.2 ⟨hrm, ?_⟩, hp, hc, hu⟩
  simpa [hp] using hr c (List.mem_of_getElem? hk) hw

theorem Inv.free {h : Host} {os os' : OS} (hi : Inv h os) (hs : Free h os os') : Inv h os' := by
  cases hs with
  | fork p hp hd pid hf =>
    have mem : ∀ q, q ∈ os.procs ++ [{ p with pid := pid, stopped := false }] →
        q ∈ os.procs ∨ q = { p with pid := pid, stopped := false } := by
      intro q hq; simpa using hq
    refine ⟨?_, ?_, ?_, ?_, ?_, ?_, ?_⟩
    · show (List.map P.pid (os.procs ++ [_])).Nodup
      rw [List.map_append, List.nodup_append]
      refine ⟨hi.nodup, by simp, ?_⟩
      intro a ha b hb
      obtain ⟨q, hq, rfl⟩ := List.mem_map.1 ha
      simp only [List.map_cons, List.map_nil, List.mem_singleton] at hb
      subst hb
      exact (hf.2 q hq).1
    · intro k c hk hw
      obtain ⟨r, hr, x⟩ := hi.root k c hk hw
      exact ⟨r, List.mem_append_left _ hr, x⟩
    · intro k c hk hw q hq hg
      rcases mem q hq with hq | rfl
      · exact hi.grp k c hk hw q hq hg
      · exact hi.grp k c hk hw p hp hg
    · intro q hq k hk
      rcases mem q hq with hq | rfl
      · exact hi.mem q hq k hk
      · exact hi.mem p hp k hk
    · intro q hq hk
      rcases mem q hq with hq | rfl
      · exact hi.out q hq hk
      · exact ⟨hf.1, (hi.out p hp hk).2⟩
    · intro q hq hk
      rcases mem q hq with hq | rfl
      · exact hi.shut q hq hk
      · exact hi.shut p hp hk
    · intro hx q hq hk hm
      rcases mem q hq with hq | rfl
      · exact hi.win hx q hq hk hm
      · exact hi.win hx p hp hk hm
  | regroup p _ _ => exact hi.map (mild_regroup.at fun q => q.pid = p.pid)
  | close p _ => exact hi.map (mild_close.at fun q => q.pid = p.pid)
  | read p _ _ => exact hi.map ((mild_read h).at fun q => q.pid = p.pid)
  | cont p _ => exact hi.map (mild_cont.at fun q => q.pid = p.pid)
  | exit p _ _ => exact hi.map (mild_kill.at fun q => q.pid = p.pid)
  | gone p _ _ hr => exact hi.filter hr
  | interrupt => exact ⟨hi.nodup, hi.root, hi.grp, hi.mem, hi.out, hi.shut, hi.win⟩

theorem signal_eq (h : Host) (pid : Nat) (procs : List P) :
    signalProcessGroup h pid procs = procs.map fun p => if (if h.unix then p.pgid else p.pid) = pid then p.kill else p := by
  unfold signalProcessGroup
  cases h.unix <;> simp

/-- the signal kills all processes of the command that have stayed in its group -/
theorem Inv.signal_dead {h : Host} {os : OS} (hi : Inv h os) {k : Nat} {c : C} (hk : os.cmds[k]? = some c)
    (hu : h.unix = true) : ∀ q ∈ signalProcessGroup h c.pid os.procs, q.cmd = some k → q.moved = false → q.dead = true := by
  intro q' hq' hc hm
  rw [signal_eq, hu] at hq'
  obtain ⟨q, hq, rfl⟩ := List.mem_map.1 hq'
  by_cases e : q.pgid = c.pid
  · simp [e, P.kill]
  · rw [if_pos rfl, if_neg e] at hc hm
    obtain ⟨d, hd, hx⟩ := hi.mem q hq k hc
    rw [hk] at hd
    obtain rfl := Option.some.inj hd
    exact absurd (hx hu hm).1 e

theorem Inv.own {h : Host} {os os' : OS} (hi : Inv h os) (hs : Own h os os') : Inv h os' := by
  cases hs with
  | start pid hf pip hd =>
    have mem : ∀ q, q ∈ os.procs ++ [({ pid := pid, pgid := newGroup h pid, cmd := some os.cmds.length, pipe := pip } : P)] →
        q ∈ os.procs ∨ q = { pid := pid, pgid := newGroup h pid, cmd := some os.cmds.length, pipe := pip } := by
      intro q hq; simpa using hq
    have get : ∀ (j : Nat) (d : C), (os.cmds ++ [({ pid := pid, piped := pip } : C)])[j]? = some d →
        os.cmds[j]? = some d ∨ (j = os.cmds.length ∧ d = { pid := pid, piped := pip }) := by
      intro j d hj
      rcases Nat.lt_trichotomy j os.cmds.length with hl | rfl | hl
      · rw [List.getElem?_append_left hl] at hj; exact .inl hj
      · simp at hj; exact .inr ⟨rfl, hj.symm⟩
      · rw [List.getElem?_eq_none (by simp; omega)] at hj; cases hj
    have up : ∀ (j : Nat) (d : C), os.cmds[j]? = some d → (os.cmds ++ [({ pid := pid, piped := pip } : C)])[j]? = some d := by
      intro j d hj
      rw [List.getElem?_append_left (List.getElem?_eq_some_iff.1 hj).1]; exact hj
    refine ⟨?_, ?_, ?_, ?_, ?_, ?_, ?_⟩
    · show (List.map P.pid (os.procs ++ [_])).Nodup
      rw [List.map_append, List.nodup_append]
      refine ⟨hi.nodup, by simp, ?_⟩
      intro a ha b hb
      obtain ⟨q, hq, rfl⟩ := List.mem_map.1 ha
      simp only [List.map_cons, List.map_nil, List.mem_singleton] at hb
      subst hb
      exact (hf.2 q hq).1
    · intro k c hk hw
      rcases get k c hk with hk | ⟨rfl, rfl⟩
      · obtain ⟨r, hr, x⟩ := hi.root k c hk hw
        exact ⟨r, List.mem_append_left _ hr, x⟩
      · exact ⟨_, List.mem_append_right _ (List.mem_singleton.2 rfl), rfl, rfl, fun hx =>
          ⟨rfl, by simp [newGroup, sysProcAttr, hx]⟩⟩
    · intro k c hk hw q hq hg
      rcases get k c hk with hk | ⟨rfl, rfl⟩
      · rcases mem q hq with hq | rfl
        · exact hi.grp k c hk hw q hq hg
        · obtain ⟨r, hr, hp, hc, _⟩ := hi.root k c hk hw
          exfalso
          by_cases hb : h.unix = true <;> simp only [newGroup, sysProcAttr, hb, if_true] at hg
          · exact (hf.2 r hr).1 (hp.trans hg.symm)
          · exact (hi.out r hr (by rw [hc]; simp)).1 (hp.trans hg.symm)
      · rcases mem q hq with hq | rfl
        · exact absurd hg (hf.2 q hq).2
        · rfl
    · intro q hq k hk
      rcases mem q hq with hq | rfl
      · obtain ⟨c, hc, hx⟩ := hi.mem q hq k hk
        exact ⟨c, up k c hc, hx⟩
      · obtain rfl := Option.some.inj hk
        refine ⟨{ pid := pid, piped := pip }, by simp, fun hx _ => ⟨by simp [newGroup, sysProcAttr, hx], fun ht => by simp at ht⟩⟩
    · intro q hq hk
      rcases mem q hq with hq | rfl
      · exact hi.out q hq hk
      · exact ⟨hf.1, fun hx => by simpa [newGroup, sysProcAttr, hx] using hf.1⟩
    · intro q hq hk
      rcases mem q hq with hq | rfl
      · exact hi.shut q hq hk
      · simp at hk
    · intro hx q hq hk hm
      rcases mem q hq with hq | rfl
      · exact hi.win hx q hq hk hm
      · simp [newGroup, sysProcAttr, hx]
  | cancel k c hk hd hp ht =>
    have h1 : Inv h { os with procs := signalProcessGroup h c.pid os.procs } := by
      rw [signal_eq]
      exact hi.map (mild_kill.at fun p => (if h.unix then p.pgid else p.pid) = c.pid)
    exact h1.set (c' := { c with told := true }) hk rfl id fun _ => .inr fun hu => hi.signal_dead hk hu
  | reap k c hk hp hd =>
    have h1 := hi.set (c' := { c with phase := .reaped }) hk rfl (by simp) .inl
    refine h1.filter ?_
    intro d hdm hw he
    obtain ⟨j, hj⟩ := List.getElem?_of_mem hdm
    obtain ⟨r, hr, hrp, hrc, _⟩ := h1.root j d hj hw
    obtain ⟨r', hr', hrp', hrc', _⟩ := hi.root k c hk hp
    have : r = r' := eq_of_pid hi.nodup hr hr' (by rw [hrp, hrp', he])
    rw [this, hrc'] at hrc
    obtain rfl := Option.some.inj hrc
    have hlt : k < os.cmds.length := (List.getElem?_eq_some_iff.1 hk).1
    simp only [List.getElem?_set, if_true, hlt, Option.some.injEq] at hj
    rw [← hj] at hw
    simp at hw
  | ask k c hk hp => exact hi.set (c' := { c with phase := .draining }) hk rfl (by simp) .inl
  | ret k c hk hp _ => exact hi.set (c' := { c with phase := .returned }) hk rfl (by simp) .inl

theorem Reached.inv {h : Host} {os : OS} (hr : Reached h os) : Inv h os := by
  induction hr with
  | init hi =>
    obtain ⟨hc, _, hn, hq⟩ := hi
    refine ⟨hn, ?_, ?_, ?_, ?_, fun q hm _ => (hq q hm).2, fun _ q hm hk => absurd (hq q hm).1 hk⟩
    · intro k c hk; rw [hc] at hk; simp at hk
    · intro k c hk; rw [hc] at hk; simp at hk
    · intro q hm k hk; rw [(hq q hm).1] at hk; cases hk
    · intro q hm hk; exact absurd (hq q hm).1 hk
  | free _ hs ih => exact ih.free hs
  | own _ hs ih => exact ih.own hs

/-- what bab does on its own, any number of steps -/
inductive Owns (h : Host) : OS → OS → Prop
  | refl {os : OS} : Owns h os os
  | step {a b c : OS} (hs : Own h a b) (ht : Owns h b c) : Owns h a c

theorem Owns.trans {h : Host} {a b c : OS} (h1 : Owns h a b) (h2 : Owns h b c) : Owns h a c := by
  induction h1 with
  | refl => exact h2
  | step hs _ ih => exact .step hs (ih h2)

theorem Reached.owns {h : Host} {a b : OS} (hr : Reached h a) (hs : Owns h a b) : Reached h b := by
  induction hs with
  | refl => exact hr
  | step hs _ ih => exact ih (hr.own hs)

/-- there are not more processes than before, and none holds a pipe it did not hold -/
def Less (a b : List P) : Prop :=
  ∀ q ∈ b, ∃ p ∈ a, p.cmd = q.cmd ∧ p.moved = q.moved ∧ (q.pipe = true → p.pipe = true)

theorem Less.refl (a : List P) : Less a a := fun q hq => ⟨q, hq, rfl, rfl, id⟩

theorem Less.trans {a b c : List P} (h1 : Less a b) (h2 : Less b c) : Less a c := by
  intro q hq
  obtain ⟨p, hp, e1, e2, e3⟩ := h2 q hq
  obtain ⟨r, hr, f1, f2, f3⟩ := h1 p hp
  exact ⟨r, hr, f1.trans e1, f2.trans e2, fun x => f3 (e3 x)⟩

theorem less_filter (a : List P) (f : P → Bool) : Less a (a.filter f) :=
  fun q hq => ⟨q, (List.mem_filter.1 hq).1, rfl, rfl, id⟩

theorem less_signal (h : Host) (pid : Nat) (a : List P) : Less a (signalProcessGroup h pid a) := by
  intro q' hq'
  rw [signal_eq] at hq'
  obtain ⟨q, hq, rfl⟩ := List.mem_map.1 hq'
  refine ⟨q, hq, ?_⟩
  by_cases e : (if h.unix then q.pgid else q.pid) = pid
  · rw [if_pos e]; simp [P.kill]
  · rw [if_neg e]; exact ⟨rfl, rfl, id⟩

theorem set_get {os : List C} {k : Nat} {c c' : C} (hk : os[k]? = some c) : (os.set k c')[k]? = some c' := by
  rw [List.getElem?_set]; simp [(List.getElem?_eq_some_iff.1 hk).1]

/-- no process that the signal does not reach holds the pipe of the command -/
def Clear (os : OS) (k : Nat) : Prop :=
  ∀ c, os.cmds[k]? = some c → c.piped = true → ∀ q ∈ os.procs, q.cmd = some k →
    (q.moved = true ∨ c.phase ≠ .waiting) → q.pipe = false

theorem finish_draining {h : Host} {os : OS} {k : Nat} {c : C} (hk : os.cmds[k]? = some c) (hp : c.phase = .draining)
    (hc : c.piped = true → ∀ q ∈ os.procs, q.cmd = some k → q.pipe = false) :
    ∃ os' c', Owns h os os' ∧ os'.done = os.done ∧ c'.phase = .returned ∧ os'.cmds = os.cmds.set k c' ∧ Less os.procs os'.procs :=
  ⟨_, _, .step (.ret k c hk hp hc) .refl, rfl, rfl, rfl, Less.refl _⟩

theorem finish_reaped {h : Host} {os : OS} {k : Nat} {c : C} (hk : os.cmds[k]? = some c) (hp : c.phase = .reaped)
    (hc : c.piped = true → ∀ q ∈ os.procs, q.cmd = some k → q.pipe = false) :
    ∃ os' c', Owns h os os' ∧ os'.done = os.done ∧ c'.phase = .returned ∧ os'.cmds = os.cmds.set k c' ∧ Less os.procs os'.procs := by
  obtain ⟨os', c', h1, h2, h3, h4, h5⟩ := finish_draining (h := h)
    (os := { os with cmds := os.cmds.set k { c with phase := .draining } }) (k := k) (c := { c with phase := .draining })
    (set_get hk) rfl hc
  exact ⟨os', c', .step (.ask k c hk hp) h1, h2, h3, by rw [h4]; exact List.set_set .., h5⟩

theorem finish_told {h : Host} {os : OS} (hi : Inv h os) (hu : h.unix = true) {k : Nat} {c : C}
    (hk : os.cmds[k]? = some c) (hp : c.phase = .waiting) (ht : c.told = true)
    (hc : c.piped = true → ∀ q ∈ os.procs, q.cmd = some k → q.moved = true → q.pipe = false) :
    ∃ os' c', Owns h os os' ∧ os'.done = os.done ∧ c'.phase = .returned ∧ os'.cmds = os.cmds.set k c' ∧ Less os.procs os'.procs := by
  have dead : ∀ q ∈ os.procs, q.cmd = some k → q.moved = false → q.dead = true := by
    intro q hq hqk hm
    obtain ⟨d, hd, hx⟩ := hi.mem q hq k hqk
    rw [hk] at hd
    obtain rfl := Option.some.inj hd
    exact (hx hu hm).2 ht
  have hd : ∀ q ∈ os.procs, q.pid = c.pid → q.dead = true := by
    intro q hq he
    obtain ⟨r, hr, hrp, hrc, hx⟩ := hi.root k c hk hp
    have : q = r := eq_of_pid hi.nodup hq hr (he.trans hrp.symm)
    rw [this]
    exact dead r hr hrc (hx hu).1
  obtain ⟨os', c', h1, h2, h3, h4, h5⟩ := finish_reaped (h := h)
    (os := { os with procs := os.procs.filter (fun q => q.pid ≠ c.pid), cmds := os.cmds.set k { c with phase := .reaped } })
    (k := k) (c := { c with phase := .reaped }) (set_get hk) rfl (by
      intro hpi q hq hqk
      have hq := (List.mem_filter.1 hq).1
      by_cases hm : q.moved = true
      · exact hc hpi q hq hqk hm
      · exact hi.shut q hq (dead q hq hqk (by simpa using hm)))
  exact ⟨os', c', .step (.reap k c hk hp hd) h1, h2, h3, by rw [h4]; exact List.set_set .., (less_filter _ _).trans h5⟩

theorem finish_one {h : Host} {os : OS} (hi : Inv h os) (hu : h.unix = true) (hd : os.done = true) {k : Nat} {c : C}
    (hk : os.cmds[k]? = some c) (hc : Clear os k) :
    ∃ os' c', Owns h os os' ∧ os'.done = true ∧ c'.phase = .returned ∧ os'.cmds = os.cmds.set k c' ∧ Less os.procs os'.procs := by
  rw [← hd]
  have hc := hc c hk
  cases hp : c.phase with
  | waiting =>
    cases ht : c.told with
    | true => exact finish_told hi hu hk hp ht fun hpi q hq hqk hm => hc hpi q hq hqk (.inl hm)
    | false =>
      have hs : Own h os { os with procs := signalProcessGroup h c.pid os.procs, cmds := os.cmds.set k { c with told := true } } :=
        .cancel k c hk hd (.inl hp) ht
      obtain ⟨os', c', h1, h2, h3, h4, h5⟩ := finish_told (hi.own hs) hu (k := k) (c := { c with told := true }) (set_get hk)
        hp rfl (by
          intro hpi q hq hqk hm
          obtain ⟨p, hpm, e1, e2, e3⟩ := less_signal h c.pid os.procs q hq
          have := hc hpi p hpm (e1.trans hqk) (.inl (e2.trans hm))
          cases hqp : q.pipe with
          | false => rfl
          | true => rw [e3 hqp] at this; cases this)
      exact ⟨os', c', .step hs h1, h2, h3, by rw [h4]; exact List.set_set .., (less_signal _ _ _).trans h5⟩
  | reaped => exact finish_reaped hk hp fun hpi q hq hqk => hc hpi q hq hqk (.inr (by rw [hp]; simp))
  | draining => exact finish_draining hk hp fun hpi q hq hqk => hc hpi q hq hqk (.inr (by rw [hp]; simp))
  | returned =>
    refine ⟨os, c, .refl, rfl, hp, ?_, Less.refl _⟩
    obtain ⟨hl, he⟩ := List.getElem?_eq_some_iff.1 hk
    rw [← he, List.set_getElem_self]

theorem finish_all {h : Host} {os : OS} (hr : Reached h os) (hu : h.unix = true) (hd : os.done = true)
    (hc : ∀ k, Clear os k) : ∀ n ≤ os.cmds.length, ∃ os', Owns h os os' ∧ os'.done = true ∧
      os'.cmds.length = os.cmds.length ∧ Less os.procs os'.procs ∧
      (∀ k c, k < n → os'.cmds[k]? = some c → c.phase = .returned) ∧
      (∀ k, n ≤ k → os'.cmds[k]? = os.cmds[k]?) := by
  intro n
  induction n with
  | zero => exact fun _ => ⟨os, .refl, hd, rfl, Less.refl _, fun _ _ h => absurd h (by simp), fun _ _ => rfl⟩
  | succ n ih =>
    intro hn
    obtain ⟨o, h1, h2, h3, h4, h5, h6⟩ := ih (by omega)
    obtain ⟨c, hcn⟩ : ∃ c, o.cmds[n]? = some c := ⟨_, List.getElem?_eq_getElem (by omega)⟩
    have clear : Clear o n := by
      intro d hdn hpi q hq hqk hm
      obtain ⟨p, hpm, e1, e2, e3⟩ := h4 q hq
      have := hc n d ((h6 n (Nat.le_refl n)).symm.trans hdn) hpi p hpm (e1.trans hqk) (by rw [e2]; exact hm)
      cases hqp : q.pipe with
      | false => rfl
      | true => rw [e3 hqp] at this; cases this
    obtain ⟨o', c', g1, g2, g3, g4, g5⟩ := finish_one (hr.owns h1).inv hu h2 hcn clear
    refine ⟨o', h1.trans g1, g2, by rw [g4, List.length_set, h3], h4.trans g5, ?_, ?_⟩
    · intro k d hk hd'
      rw [g4, List.getElem?_set] at hd'
      split at hd'
      · split at hd'
        · obtain rfl := Option.some.inj hd'; exact g3
        · cases hd'
      · exact h5 k d (by omega) hd'
    · intro k hk
      rw [g4, List.getElem?_set, if_neg (by omega)]
      exact h6 k (by omega)

end Bab.Proc
