import Verif.Spec.RenameVar
import Verif.Props.Texts
import Verif.Props.Unused
/-
C127: a variable can be renamed, one of a task or one for all tasks.
-/

namespace Bab
open Spec Spec.Inline

namespace RenameVar

theorem trim_nil {p : Char → Bool} {s : Str} : trimFunc p s = [] ↔ ∀ c ∈ s, p c = true := by
  unfold trimFunc
  rw [List.reverse_eq_nil_iff, List.dropWhile_eq_nil_iff]
  constructor
  · intro h c hc
    rw [← List.takeWhile_append_dropWhile (p := p) (l := s)] at hc
    rcases List.mem_append.mp hc with hc | hc
    · exact List.mem_takeWhile_imp hc
    · exact h c (List.mem_reverse.mpr hc)
  · intro h c hc
    exact h c ((List.dropWhile_sublist p).mem (List.mem_reverse.mp hc))

theorem ref_dollar {t n : Str} (h : IsRef t n) : '$' ∈ t := by
  obtain ⟨q, rfl⟩ := isRef_ne_nil h
  exact List.mem_cons_self

variable {x y s s' : Str}

theorem blank_iff (h : Renamed x y s s') : trimSpace s = [] ↔ trimSpace s' = [] := by
  unfold trimSpace
  rw [trim_nil, trim_nil]
  have no : isGoSpace '$' = false := by decide
  have two : ∀ {t u r r' : Str}, '$' ∈ t → '$' ∈ u → ((∀ c ∈ t ++ r, isGoSpace c = true) ↔ ∀ c ∈ u ++ r', isGoSpace c = true) := by
    intro t u r r' h1 h2
    constructor
    · intro h
      have := h '$' (List.mem_append_left _ h1)
      rw [no] at this; cases this
    · intro h
      have := h '$' (List.mem_append_left _ h2)
      rw [no] at this; cases this
  unfold Renamed at h
  induction h with
  | nil => exact Iff.rfl
  | chr _ _ ih => simp only [List.mem_cons, forall_eq_or_imp, ih]
  | last => exact Iff.rfl
  | dollar _ _ _ ih => simp only [List.mem_cons, forall_eq_or_imp, ih]
  | brace _ _ _ ih => simp only [List.mem_cons, forall_eq_or_imp, ih]
  | esc _ ih => exact two (by decide) (by decide)
  | keep ht _ ih => exact two (ref_dollar ht) (ref_dollar ht)
  | put ht hu _ ih => exact two (ref_dollar ht) (ref_dollar hu)

theorem empty_iff (h : Renamed x y s s') : s = [] ↔ s' = [] := by
  constructor
  · intro e
    by_contra hne
    exact Inline.nonempty h hne e
  · intro e
    by_contra hne
    unfold Renamed at h
    cases h with
    | nil => exact hne rfl
    | chr => cases e
    | last => cases e
    | dollar => cases e
    | brace => cases e
    | esc => cases e
    | keep ht =>
      obtain ⟨q, rfl⟩ := isRef_ne_nil ht
      cases e
    | put _ hu =>
      obtain ⟨q, rfl⟩ := isRef_ne_nil hu
      cases e

section
variable {c : Cfg} {M : GoMap Str → Prop}

/-- the variables are such that `x` and `y` have the same value, and no value contains NUL -/
structure Both (c : Cfg) (M : GoMap Str → Prop) (x y : Str) : Prop where
  same : ∀ m, M m → ∃ v, value m.get? c.env x = some v ∧ value m.get? c.env y = some v
  clean : ∀ m, M m → ∀ n w, value m.get? c.env n = some w → NoNul w

variable (hb : Both c M x y)
include hb

theorem saying {t t' : Str} (h : RenameVar.Text x y t t') : Texts.Says c M t t' := by
  intro m hm
  obtain ⟨v, h1, h2⟩ := hb.same m hm
  exact (Inline.same (ctx := ⟨m, c.env⟩) h1 (fun u hu => Inline.fits_ref h2 hu) (fun u hu => Inline.ref_noNul hu) h.1 (hb.clean m hm) h.2).symm

theorem dirs {t t' : Str} (h : RenameVar.Text x y t t') : Texts.SameDir c M t t' := ⟨empty_iff h.2, saying hb h⟩

theorem decides {t t' : Str} (h : RenameVar.Text x y t t') : Texts.Decides c M t t' := by
  intro m hm
  unfold evaluate
  rw [saying hb h m hm]
  by_cases e : t = []
  · rw [if_pos e, if_pos ((empty_iff h.2).mp e)]
  · rw [if_neg e, if_neg fun k => e ((empty_iff h.2).mpr k)]

theorem envs {l l' : GoMap Str} (h : List.Forall₂ (fun p q => p.1 = q.1 ∧ RenameVar.Text x y p.2 q.2) l l') : Texts.SameEnv c M l l' :=
  h.imp fun _ _ h => ⟨h.1, saying hb h.2⟩

theorem items {l l' : List RunItem} (h : RenameVar.Items x y l l') : Texts.SameItems c M true l l' := by
  induction h with
  | nil => exact .nil
  | command h _ ih => exact .command ⟨h.rest, blank_iff h.cmd.2, saying hb h.cmd, dirs hb h.dir, envs hb h.env, decides hb h.cond⟩ ih
  | task h _ ih => exact .task (decides hb h) ih
  | log h _ ih =>
    refine .log ⟨?_, fun m hm => ?_, fun _ => ⟨saying hb h.log, ?_⟩, decides hb h.cond⟩ ih
    · have := h.rest
      rw [this]
    · rw [saying hb h.log m hm]
    · rw [h.rest]
  | parallel _ h _ ih1 ih2 => exact .parallel ih1 (decides hb h) ih2

end

section
variable {c : Cfg} {tasks tasks' : TaskMap} {g : GoMap Str} {n raw : Str} {T T' : Task}

/-- the command at `loc` is due and would be started with this text, environment and directory -/
def Ready (c : Cfg) (tasks : TaskMap) (g : GoMap Str) (main : Str) (loc : Loc) (p : Str × GoMap Str × Str) : Prop :=
  ∃ T v m tenv, tasks.get? loc.task = some T ∧ Spec.Due c tasks g main (.item loc (.command v) m) ∧
    interpolateEnv ⟨m, c.env⟩ (mergeEnvMaps [c.globalEnv, T.env]) = .ok tenv ∧ prepareCommand c T v tenv m = .ok p

theorem ready_unique {main : Str} {loc : Loc} {p q : Str × GoMap Str × Str} (h : Ready c tasks g main loc p) (h' : Ready c tasks g main loc q) :
    p = q := by
  obtain ⟨T1, v, m, tenv, hT1, hd, he, hp⟩ := h
  obtain ⟨T2, v', m', tenv', hT2, hd', he', hp'⟩ := h'
  rw [hT1] at hT2; cases hT2
  obtain ⟨h1, rfl⟩ := Due.item_unique hd hd'
  cases h1
  rw [he] at he'; cases he'
  rw [hp] at hp'; cases hp'
  rfl

theorem ready_values {main : Str} {g' : GoMap Str} (hs : Values.Same c g g' tasks tasks') {loc : Loc} {p : Str × GoMap Str × Str}
    (h : Ready c tasks g main loc p) : Ready c tasks' g' main loc p := by
  obtain ⟨T1, v, m, tenv, hT1, hd, he, hp⟩ := h
  obtain ⟨m2, U, k1, k2, k3, k4⟩ := Bab.Values.due_of hs.1 hd
  rw [hT1] at k2; cases k2
  obtain ⟨vs, k5, -⟩ := hs.1 _ _ hT1
  refine ⟨_, v, m2, tenv, k5, k1, ?_, ?_⟩
  · show interpolateEnv ⟨m2, c.env⟩ (mergeEnvMaps [c.globalEnv, T1.env]) = .ok tenv
    rw [← Bab.Values.tenv_eq k3, he]
  · show prepareCommand c T1 v tenv m2 = .ok p
    rw [← Bab.Values.on_prepare k3 (k4.2.1 v rfl) he, hp]

theorem ready_texts {main : Str} (hs : Texts.Same c g true tasks tasks') {loc : Loc} {p : Str × GoMap Str × Str}
    (h : Ready c tasks g main loc p) : Ready c tasks' g main loc p := by
  obtain ⟨T1, v, m, tenv, hT1, hd, he, hp⟩ := h
  obtain ⟨T, it', r1, r2, r3, r4⟩ := Texts.due_of hs hd
  rw [hT1] at r2; cases r2
  obtain ⟨T3, k1, k2⟩ := hs.1 _ _ hT1
  cases r4 with
  | command q _ =>
    exact ⟨T3, _, m, tenv, k1, r1, by rw [← Texts.tenv_eq k2 r3, he], Texts.prepare_ok (Texts.source_eq k2) k2.dir q r3 hp⟩

/-- the steps from the one to the other: `y` is added, the texts are changed, `x` is removed -/
theorem steps (h : RenameVar.Renaming c g n x y raw tasks tasks' T T') :
    ∃ mid mid', Values.Same c g g tasks mid ∧ Texts.Same c g true mid mid' ∧ Values.Same c g g mid' tasks' := by
  obtain ⟨hren, hT, hT', hne, hx, hy, hknown, hdir, henv, hagain, hagain', hclean⟩ := h
  have hrx : ¬ Mentions raw x := hren.after.vars y raw hren.own'
  have hry : ¬ Mentions raw y := hren.before.vars x raw hren.own
  have hW : ∀ k, ((T.vars.getD []).set y raw).get? k = if k = y then some raw else (T.vars.getD []).get? k := fun k => Values.set_get k
  have id1 : Unused.Idle (T.vars.getD []) ((T.vars.getD []).set y raw) g y raw := ⟨hW, hren.fresh, hren.before.vars, hry, hknown⟩
  have id2 : Unused.Idle (T'.vars.getD []) ((T.vars.getD []).set y raw) g x raw := by
    refine ⟨fun k => ?_, hren.gone, hren.after.vars, hrx, fun z hz he => ?_⟩
    · rw [hW]
      by_cases e : k = y
      · rw [if_pos e, if_neg (fun h => hren.ne (h.symm.trans e)), e, hren.own']
      · rw [if_neg e]
        by_cases e' : k = x
        · rw [if_pos e', e', hren.own]
        · rw [if_neg e', hren.others k e' e]
    · refine (hknown z hz he).imp (fun h => ?_) fun h => h
      obtain ⟨ts, hr, hm⟩ := hz
      have hzm := reads_refs_mentions hr z hm
      rw [hren.others z (by rintro rfl; exact hrx hzm) (by rintro rfl; exact hry hzm)]
      exact h
  have hW1 : ∀ W : TaskMap, ∀ U : Task, (W.set n U).get? n = some U := fun W U => GoMap.get?_set_self _ _ _
  have hW2 : ∀ (W : TaskMap) (U : Task) k, k ≠ n → (W.set n U).get? k = W.get? k := fun W U k h => GoMap.get?_set_ne _ _ (Ne.symm h)
  refine ⟨tasks.set n { T with vars := some ((T.vars.getD []).set y raw) }, tasks.set n { T' with vars := some ((T.vars.getD []).set y raw) }, ?_, ?_, ?_⟩
  · exact Unused.same hT (hW1 _ _) (hW2 _ _) id1 hren.before hdir.2 (fun p hp => (henv p hp).2) hagain
  · have both : Both c (Texts.Resolved c g { T with vars := some ((T.vars.getD []).set y raw) }) x y := by
      have vals : ∀ m, resolveVars (some ((T.vars.getD []).set y raw)) g c.env = .ok m → ∃ v, m.get? x = some v ∧ m.get? y = some v := by
        intro m hm
        have sp := resolveVars_spec ((T.vars.getD []).set y raw) g c.env
        rw [hm] at sp
        obtain ⟨a1, -, -⟩ := sp
        obtain ⟨v, v1, v2⟩ := a1 x raw (by rw [hW, if_neg hren.ne]; exact hren.own)
        obtain ⟨w, w1, w2⟩ := a1 y raw (by rw [hW, if_pos rfl])
        rw [v1] at w1; cases w1
        exact ⟨v, v2, w2⟩
      refine ⟨fun m hm => ?_, fun m hm k w hk => ?_⟩
      · obtain ⟨v, h1, h2⟩ := vals m hm
        exact ⟨v, by rw [value_var _ _ hx]; exact h1, by rw [value_var _ _ hy]; exact h2⟩
      · obtain ⟨m0, hm0⟩ := (Unused.idle_ok (env := c.env) id1).mpr ⟨m, hm⟩
        have hc := hclean m0 (by rw [Values.resolve_getD]; exact hm0)
        obtain ⟨v, h1, h2⟩ := vals m hm
        by_cases e : k = y
        · subst e
          rw [value_var _ _ hy, h2] at hk; cases hk
          refine hc x _ ?_
          rw [value_var _ _ hx, Unused.idle_same id1 hm0 hm x hren.ne]
          exact h1
        · refine hc k w ?_
          by_cases he : IsEnv k
          · obtain ⟨z, rfl⟩ := he
            exact hk
          · rw [value_var _ _ he] at hk ⊢
            rw [Unused.idle_same id1 hm0 hm k e]; exact hk
    refine ⟨fun k U hU => ?_, fun k hk => ?_⟩
    · by_cases e : k = n
      · subst e
        rw [hW1] at hU; cases hU
        refine ⟨_, hW1 _ _, ?_, fun _ _ => ?_, dirs both hren.dir, envs both hren.env, items both hren.run⟩
        · have := hren.rest
          cases T; cases T'; simp_all
        · have := hren.rest
          have e : T'.cond = T.cond := by rw [this]
          show evaluate T.cond _ = evaluate T'.cond _
          rw [e]
      · rw [hW2 _ _ _ e] at hU
        refine ⟨U, (hW2 _ _ _ e).trans hU, rfl, fun _ _ => rfl, ⟨Iff.rfl, fun _ _ => rfl⟩, Texts.env_refl _, ?_⟩
        exact Texts.items_refl _
    · by_cases e : k = n
      · subst e
        rw [hW1] at hk; cases hk
      · rw [hW2 _ _ _ e] at hk ⊢
        exact hk
  · have := Unused.same (tasks' := tasks.set n { T' with vars := some ((T.vars.getD []).set y raw) }) hT' (hW1 _ _)
      (fun k hk => (hW2 _ _ k hk).trans (hne k hk).symm) id2 hren.after hdir.1 (fun p hp => (henv p hp).1) hagain'
    exact ⟨this.2, this.1⟩

/-- the same for a variable that is defined for all tasks -/
theorem stepsAll {g' : GoMap Str} {v : Str} (h : RenameVar.Everywhere c g g' x y v tasks tasks') :
    ∃ g1, Values.Same c g g1 tasks tasks ∧ Texts.Same c g1 true tasks tasks' ∧ Values.Same c g1 g' tasks' tasks' := by
  obtain ⟨hne, hv, hv', hoth, husers, honly, hx, hy, hdir, henv, hagain, hagain', hclean, hcleanT⟩ := h
  have hW : ∀ k, (g.set y v).get? k = if k = y then some v else g.get? k := fun k => Values.set_get k
  have hg1 : ∀ k, k ≠ y → (g.set y v).get? k = g.get? k := fun k hk => by rw [hW, if_neg hk]
  have hg2 : ∀ k, k ≠ x → (g.set y v).get? k = g'.get? k := by
    intro k hk
    rw [hW]
    by_cases e : k = y
    · rw [if_pos e, e, hv']
    · rw [if_neg e, hoth k hk e]
  have back : ∀ k U, tasks'.get? k = some U → ∃ T, tasks.get? k = some T ∧ RenameVar.User x y T U := by
    intro k U hU
    cases ht : tasks.get? k with
    | none => rw [honly k ht] at hU; cases hU
    | some T =>
      obtain ⟨T', h1, h2⟩ := husers k T ht
      rw [h1] at hU; cases hU
      exact ⟨T, rfl, h2⟩
  have hw : ∀ k U, tasks.get? k = some U → Values.Without U y := fun k U hU => (husers k U hU).choose_spec.2.before
  have hw' : ∀ k U, tasks'.get? k = some U → Values.Without U x := fun k U hU => (back k U hU).choose_spec.2.after
  have s3 := C126_global (g := g') (g' := g.set y v) (tasks := tasks') hg2 hdir.1 (fun p hp => (henv p hp).1) hw' hagain'
  have both0 : Both c (· = g.set y v) x y := by
    refine ⟨?_, ?_⟩
    · rintro m rfl
      exact ⟨v, by rw [value_var _ _ hx, hW, if_neg hne]; exact hv, by rw [value_var _ _ hy, hW, if_pos rfl]⟩
    · rintro m rfl k w hk
      by_cases he : IsEnv k
      · obtain ⟨z, rfl⟩ := he
        exact hclean ("env.".toList ++ z) w hk
      · rw [value_var _ _ he, hW] at hk
        split_ifs at hk with e
        · cases hk
          exact hclean x _ (by rw [value_var _ _ hx]; exact hv)
        · exact hclean k w (by rw [value_var _ _ he]; exact hk)
  refine ⟨g.set y v, C126_global hg1 hdir.2 (fun p hp => (henv p hp).2) hw hagain, ⟨fun k T hT => ?_, honly⟩, s3.2, s3.1⟩
  obtain ⟨T', hT', hu⟩ := husers k T hT
  have both : Both c (Texts.Resolved c (g.set y v) T) x y := by
    have vals : ∀ m, resolveVars T.vars (g.set y v) c.env = .ok m → m.get? x = some v ∧ m.get? y = some v := by
      intro m hm
      rw [Values.resolve_getD] at hm
      have sp := resolveVars_spec (T.vars.getD []) (g.set y v) c.env
      rw [hm] at sp
      obtain ⟨-, a2, -⟩ := sp
      exact ⟨by rw [a2 x hu.own, hW, if_neg hne]; exact hv, by rw [a2 y hu.own', hW, if_pos rfl]⟩
    refine ⟨fun m hm => ?_, fun m hm k' w hk => ?_⟩
    · obtain ⟨h1, h2⟩ := vals m hm
      exact ⟨v, by rw [value_var _ _ hx]; exact h1, by rw [value_var _ _ hy]; exact h2⟩
    · obtain ⟨h1, h2⟩ := vals m hm
      have hm' : resolveVars (some (T.vars.getD [])) (g.set y v) c.env = .ok m := by rw [← Values.resolve_getD]; exact hm
      obtain ⟨m0, k1, k2⟩ := Bab.Values.other_parent (g' := g) (fun k2 r z hr hz _ _ => hg1 z fun e =>
        hu.before.vars k2 r hr (e ▸ hz)) hm'
      have hc := hcleanT k T m0 hT (by rw [Values.resolve_getD]; exact k1)
      by_cases he : IsEnv k'
      · obtain ⟨z, rfl⟩ := he
        exact hc ("env.".toList ++ z) w hk
      · by_cases e : k' = y
        · rw [value_var _ _ he, e, h2] at hk; cases hk
          exact hclean x _ (by rw [value_var _ _ hx]; exact hv)
        · refine hc k' w ?_
          rw [value_var _ _ he] at hk ⊢
          rw [← k2 k' (.inr (hg1 k' e))]; exact hk
  exact ⟨T', hT', hu.rest, decides both0 hu.cond, dirs both hu.dir, envs both hu.env, items both hu.run⟩

end
end RenameVar

section
variable {c : Cfg} {tasks mid mid' tasks' : TaskMap} {g g1 g' : GoMap Str} {main : Str} {s s' : State}

namespace RenameVar

section
variable (h1 : Values.Same c g g1 tasks mid) (h2 : Texts.Same c g1 true mid mid') (h3 : Values.Same c g1 g' mid' tasks')
include h1 h2 h3

theorem entry {e : PlanEntry} : DueEntry c tasks g main e ↔ DueEntry c tasks' g' main e :=
  ⟨fun h => Values.entry_of h3.1 (Texts.entry_of h2 (Values.entry_of h1.1 h)),
    fun h => Values.entry_of h1.2 (Texts.entry_of (Texts.same_symm h2) (Values.entry_of h3.2 h))⟩

theorem unasked (hask : Unasked c tasks g main) : Unasked c tasks' g' main := Values.unasked h3 (Texts.unasked h2 (Values.unasked h1 hask))

theorem same (hd : c.dry = false) (hask : Unasked c tasks g main) (hr : Reach (start c tasks g main) s) (hp : s.prog = .ret none)
    (hc : ∀ id, .cancel id ∉ s.sh.trace) (hr' : Reach (start c tasks' g' main) s') (hp' : s'.prog = .ret none)
    (hc' : ∀ id, .cancel id ∉ s'.sh.trace) : (Spec.entries s'.sh.trace).Perm (Spec.entries s.sh.trace) := by
  have hask' := unasked h1 h2 h3 hask
  refine (List.perm_ext_iff_of_nodup (Due.entries_nodup fun loc => acts_once hr' loc) (Due.entries_nodup fun loc => acts_once hr loc)).mpr fun e => ?_
  constructor
  · intro he
    exact C78_all hd hask hr hp hc ((entry h1 h2 h3).mpr (C78_only hd hask' hr' he))
  · intro he
    exact C78_all hd hask' hr' hp' hc' ((entry h1 h2 h3).mp (C78_only hd hask hr he))

theorem process (hd : c.dry = false) (hask : Unasked c tasks g main) (hr : Reach (start c tasks g main) s)
    (hr' : Reach (start c tasks' g' main) s') {loc : Loc} {spec spec' : ProcSpec}
    (h : .procStart loc spec ∈ s.sh.trace) (h' : .procStart loc spec' ∈ s'.sh.trace) :
    spec.shell = spec'.shell ∧ spec.arg = spec'.arg ∧ spec.cmd = spec'.cmd ∧ spec.dir = spec'.dir ∧
    ∀ k, k ∉ colourNames → procEnv c spec k = procEnv c spec' k := by
  obtain ⟨T1, v, m, tenv, text, env, dir, fr, hT1, hdue, he, hpr, rfl⟩ := Due.events hd hask hr _ h
  obtain ⟨T2, v', m', tenv', text', env', dir', fr', hT2, hdue', he', hpr', rfl⟩ := Due.events hd (unasked h1 h2 h3 hask) hr' _ h'
  have := ready_unique (ready_values h3 (ready_texts h2 (ready_values h1 ⟨T1, v, m, tenv, hT1, hdue, he, hpr⟩)))
    ⟨T2, v', m', tenv', hT2, hdue', he', hpr'⟩
  cases this
  refine ⟨rfl, rfl, rfl, rfl, fun k hk => ?_⟩
  have we : env.WF := interpolateEnv_WF (prepare_inv hpr).2.1 (WF_mergeEnvMaps _)
  rw [procEnv_eq we, procEnv_eq we, colourEnv_other hk, colourEnv_other hk]

theorem success (hd : c.dry = false) (hask : Unasked c tasks g main) {rank : Str → Nat} (hrk : ∀ a b, Refers tasks a b → rank b < rank a)
    (hsep : Separate tasks) (hr : Reach (start c tasks g main) s)
    (hcalm : ∀ e ∈ s.sh.trace, Calm e) {r r' : Option Err} (hp : s.prog = .ret r) (hr' : Reach (start c tasks' g' main) s')
    (hcalm' : ∀ e ∈ s'.sh.trace, Calm e) (hp' : s'.prog = .ret r') : r' = none ↔ r = none := by
  have h2' := Texts.same_symm h2
  rw [C79_exact hd hask hrk hsep hr hcalm hp,
    C79_exact hd (unasked h1 h2 h3 hask) (fun a b h => hrk a b (Values.refers_of h1.2 (Texts.refers_of h2' (Values.refers_of h3.2 h))))
      (Values.separate h3 (Texts.separate h2 (Values.separate h1 hsep))) hr' hcalm' hp']
  exact ⟨fun h => Values.works_of h1.2 h1.1 (Texts.works_of h2' (Values.works_of h3.2 h3.1 h)),
    fun h => Values.works_of h3.1 h3.2 (Texts.works_of h2 (Values.works_of h1.1 h1.2 h))⟩

end
end RenameVar

variable {n x y raw v : Str} {T T' : Task}

/-- **C127** A variable of a task can be renamed: the same commands are run and the same messages are printed, each once. -/
theorem C127_same (hren : RenameVar.Renaming c g n x y raw tasks tasks' T T') (hd : c.dry = false) (hask : Unasked c tasks g main)
    (hr : Reach (start c tasks g main) s) (hp : s.prog = .ret none)
    (hc : ∀ id, .cancel id ∉ s.sh.trace) (hr' : Reach (start c tasks' g main) s') (hp' : s'.prog = .ret none)
    (hc' : ∀ id, .cancel id ∉ s'.sh.trace) : (Spec.entries s'.sh.trace).Perm (Spec.entries s.sh.trace) := by
  obtain ⟨mid, mid', h1, h2, h3⟩ := RenameVar.steps hren
  exact RenameVar.same h1 h2 h3 hd hask hr hp hc hr' hp' hc'

/-- **C127** The processes are started in the same way: with the same shell and text, in the same directory and with the same environment,
apart from the variables that decide about colours. -/
theorem C127_process (hren : RenameVar.Renaming c g n x y raw tasks tasks' T T') (hd : c.dry = false) (hask : Unasked c tasks g main)
    (hr : Reach (start c tasks g main) s) (hr' : Reach (start c tasks' g main) s') {loc : Loc} {spec spec' : ProcSpec}
    (h : .procStart loc spec ∈ s.sh.trace) (h' : .procStart loc spec' ∈ s'.sh.trace) :
    spec.shell = spec'.shell ∧ spec.arg = spec'.arg ∧ spec.cmd = spec'.cmd ∧ spec.dir = spec'.dir ∧
    ∀ k, k ∉ colourNames → procEnv c spec k = procEnv c spec' k := by
  obtain ⟨mid, mid', h1, h2, h3⟩ := RenameVar.steps hren
  exact RenameVar.process h1 h2 h3 hd hask hr hr' h h'

/-- **C127** And success is the same: if references make no circle and items of parallel blocks keep out of each other's way, then a run
with the one name in which nothing goes wrong outside succeeds exactly if such a run with the other does. -/
theorem C127_success (hren : RenameVar.Renaming c g n x y raw tasks tasks' T T') (hd : c.dry = false) (hask : Unasked c tasks g main)
    {rank : Str → Nat} (hrk : ∀ a b, Refers tasks a b → rank b < rank a) (hsep : Separate tasks) (hr : Reach (start c tasks g main) s)
    (hcalm : ∀ e ∈ s.sh.trace, Calm e) {r r' : Option Err} (hp : s.prog = .ret r) (hr' : Reach (start c tasks' g main) s')
    (hcalm' : ∀ e ∈ s'.sh.trace, Calm e) (hp' : s'.prog = .ret r') : r' = none ↔ r = none := by
  obtain ⟨mid, mid', h1, h2, h3⟩ := RenameVar.steps hren
  exact RenameVar.success h1 h2 h3 hd hask hrk hsep hr hcalm hp hr' hcalm' hp'

/-- **C127** So can a variable that is defined for all tasks, in all tasks and their conditions. -/
theorem C127_global (hren : RenameVar.Everywhere c g g' x y v tasks tasks') (hd : c.dry = false) (hask : Unasked c tasks g main)
    (hr : Reach (start c tasks g main) s) (hp : s.prog = .ret none)
    (hc : ∀ id, .cancel id ∉ s.sh.trace) (hr' : Reach (start c tasks' g' main) s') (hp' : s'.prog = .ret none)
    (hc' : ∀ id, .cancel id ∉ s'.sh.trace) : (Spec.entries s'.sh.trace).Perm (Spec.entries s.sh.trace) := by
  obtain ⟨g1, h1, h2, h3⟩ := RenameVar.stepsAll hren
  exact RenameVar.same h1 h2 h3 hd hask hr hp hc hr' hp' hc'

/-- **C127** With the same processes. -/
theorem C127_global_process (hren : RenameVar.Everywhere c g g' x y v tasks tasks') (hd : c.dry = false) (hask : Unasked c tasks g main)
    (hr : Reach (start c tasks g main) s) (hr' : Reach (start c tasks' g' main) s') {loc : Loc} {spec spec' : ProcSpec}
    (h : .procStart loc spec ∈ s.sh.trace) (h' : .procStart loc spec' ∈ s'.sh.trace) :
    spec.shell = spec'.shell ∧ spec.arg = spec'.arg ∧ spec.cmd = spec'.cmd ∧ spec.dir = spec'.dir ∧
    ∀ k, k ∉ colourNames → procEnv c spec k = procEnv c spec' k := by
  obtain ⟨g1, h1, h2, h3⟩ := RenameVar.stepsAll hren
  exact RenameVar.process h1 h2 h3 hd hask hr hr' h h'

/-- **C127** With the same success. -/
theorem C127_global_success (hren : RenameVar.Everywhere c g g' x y v tasks tasks') (hd : c.dry = false) (hask : Unasked c tasks g main)
    {rank : Str → Nat} (hrk : ∀ a b, Refers tasks a b → rank b < rank a) (hsep : Separate tasks) (hr : Reach (start c tasks g main) s)
    (hcalm : ∀ e ∈ s.sh.trace, Calm e) {r r' : Option Err} (hp : s.prog = .ret r) (hr' : Reach (start c tasks' g' main) s')
    (hcalm' : ∀ e ∈ s'.sh.trace, Calm e) (hp' : s'.prog = .ret r') : r' = none ↔ r = none := by
  obtain ⟨g1, h1, h2, h3⟩ := RenameVar.stepsAll hren
  exact RenameVar.success h1 h2 h3 hd hask hrk hsep hr hcalm hp hr' hcalm' hp'

end

namespace Sample
open Exec RenameVar

def inX : Task := { name := s "all", vars := some [(s "x", s "${{ root }}/a")], run := [cmd "cc $F ${{ x }}.c"] }
def inFile : Task := { name := s "all", vars := some [(s "file", s "${{ root }}/a")], run := [cmd "cc $F ${{ file }}.c"] }
def rooted : GoMap Str := [(s "root", s "/o")]

theorem ref_x : IsRef (s "${{ x }}") (s "x") :=
  ⟨[' '], [' '], rfl, ⟨'x', [], rfl, by unfold Letter; decide, by simp⟩, by unfold Blank; decide, by unfold Blank; decide⟩

theorem ref_file : IsRef (s "${{ file }}") (s "file") :=
  ⟨[' '], [' '], rfl, ⟨'f', s "ile", rfl, by unfold Letter; decide, by unfold NameChar Letter; decide⟩, by unfold Blank; decide, by unfold Blank; decide⟩

theorem file_text : Renamed (s "x") (s "file") (s "cc $F ${{ x }}.c") (s "cc $F ${{ file }}.c") := by
  have := Replaced.chr (x := s "x") (by' := (IsRef · (s "file"))) (c := 'c') (by decide) (.chr (c := 'c') (by decide) (.chr (c := ' ') (by decide)
    (.dollar (d := 'F') (by decide) (by decide) (.chr (c := ' ') (by decide) (.put ref_x ref_file (.chr (c := '.') (by decide)
    (.chr (c := 'c') (by decide) .nil)))))))
  exact this

/-- the conditions of `C127_same` are met -/
theorem inFile_renames : Spec.RenameVar.Renaming {} rooted (s "all") (s "x") (s "file") (s "${{ root }}/a") [(s "all", inX)] [(s "all", inFile)] inX inFile := by
  have none : Spec.RenameVar.Text (s "x") (s "file") [] [] := ⟨by unfold NoNul; decide, .nil⟩
  have wo : ∀ {n raw : Str} {v text : String}, v.toList ∉ extractVarRefs 0 raw → v.toList ∉ extractVarRefs 0 text.toList →
      Spec.Values.Without { name := s "all", vars := some [(n, raw)], run := [cmd text] } v.toList := by
    intro n raw v text h1 h2
    refine ⟨without (by simp [extractVarRefs]), without (by simp [extractVarRefs]), nofun, fun k r hk => ?_, fun it hit => ?_⟩
    · have := GoMap.mem_of_get? hk
      simp only [Option.getD_some, List.mem_singleton, Prod.mk.injEq] at this
      rw [this.2]
      exact without h1
    · simp only [List.mem_singleton] at hit
      subst hit
      exact ⟨without (by simp [extractVarRefs, cmd, RunItem.cond]), without h2, without (by simp [extractVarRefs]), nofun⟩
  have known : ∀ z, Uses (s "${{ root }}/a") z → z = s "root" := by
    rintro z ⟨ts, hr, hm⟩
    have := (mem_extract_iff _ z).mpr (reads_refs_mentions hr z hm)
    rwa [show extractVarRefs 0 (s "${{ root }}/a") = [s "root"] by decide +kernel, List.mem_singleton] at this
  refine ⟨⟨by decide +kernel, by decide +kernel, by decide +kernel, fun k h1 h2 => ?_, by decide +kernel, by decide +kernel, rfl, none, .nil, ?_,
    wo (by decide +kernel) (by decide +kernel), wo (by decide +kernel) (by decide +kernel)⟩, rfl, rfl, fun k hk => ?_, ?_, ?_, fun z hz _ => ?_,
    ⟨without (by decide +kernel), without (by decide +kernel)⟩, nofun, ?_, ?_, fun m hm k w hk => ?_⟩
  · simp [inX, inFile, GoMap.get?, Ne.symm h1, Ne.symm h2]
  · exact .command ⟨rfl, ⟨by unfold NoNul; decide +kernel, file_text⟩, none, .nil, none⟩ .nil
  · simp [GoMap.get?, Ne.symm hk]
  · rintro ⟨z, h⟩
    exact absurd (congrArg List.head? h) (by simp [s])
  · rintro ⟨z, h⟩
    exact absurd (congrArg List.head? h) (by simp [s])
  · rw [known z hz]
    exact .inr (by decide +kernel)
  · intro m tenv _ ht p hp
    cases ht
    cases hp
  · intro m tenv _ ht p hp
    cases ht
    cases hp
  · have : resolveVars inX.vars rooted (Cfg.env {}) = .ok [(s "root", s "/o"), (s "x", s "/o/a")] := by decide +kernel
    rw [this] at hm
    cases hm
    by_cases he : IsEnv k
    · obtain ⟨z, rfl⟩ := he
      have hk : some ((Cfg.env {} z).getD []) = some w := hk
      cases hk
      unfold NoNul
      exact List.not_mem_nil
    · rw [value_var _ _ he] at hk
      have := GoMap.mem_of_get? hk
      simp only [List.mem_cons, Prod.mk.injEq, List.not_mem_nil, or_false] at this
      rcases this with ⟨-, rfl⟩ | ⟨-, rfl⟩ <;> (unfold NoNul; decide +kernel)

def inXRun : State := drive [.auto 400] (start {} [(s "all", inX)] rooted (s "all"))
def inFileRun : State := drive [.auto 400] (start {} [(s "all", inFile)] rooted (s "all"))

theorem inX_unasked : Unasked {} [(s "all", inX)] rooted (s "all") := by
  intro n T p _ hT hp
  have := GoMap.mem_of_get? hT
  simp only [List.mem_singleton, Prod.mk.injEq] at this
  obtain ⟨-, rfl⟩ := this
  simp [inX, cmd] at hp

example : (Spec.entries inFileRun.sh.trace).Perm (Spec.entries inXRun.sh.trace) ∧
    Spec.entries inFileRun.sh.trace = [.cmd ⟨s "all", 0, none⟩ (s "cc $F /o/a.c")] ∧ Separate [(s "all", inX)] :=
  ⟨C127_same inFile_renames rfl inX_unasked (reach _ _) (ret_of_result (by decide +kernel)) (calm_of (by decide +kernel))
    (reach _ _) (ret_of_result (by decide +kernel)) (calm_of (by decide +kernel)), by decide +kernel, no_blocks (by decide +kernel)⟩

/-- two tasks that use a variable for all tasks, one of them in its condition -/
def useAll (w text : String) : Task := { name := s "all", deps := [s "lib"], cond := s w, run := [cmd text] }
def useLib (text : String) : Task := { name := s "lib", run := [cmd text] }
def usesX : TaskMap := [(s "all", useAll "${{ x }}" "cc $F ${{ x }}.c"), (s "lib", useLib "cc $F ${{ x }}.c")]
def usesFile : TaskMap := [(s "all", useAll "${{ file }}" "cc $F ${{ file }}.c"), (s "lib", useLib "cc $F ${{ file }}.c")]
def forX : GoMap Str := [(s "x", s "/o/a"), (s "root", s "/o")]
def forFile : GoMap Str := [(s "file", s "/o/a"), (s "root", s "/o")]

/-- the conditions of `C127_global` are met -/
theorem usesFile_renames : Spec.RenameVar.Everywhere {} forX forFile (s "x") (s "file") (s "/o/a") usesX usesFile := by
  have none : Spec.RenameVar.Text (s "x") (s "file") [] [] := ⟨by unfold NoNul; decide, .nil⟩
  have cond : Spec.RenameVar.Text (s "x") (s "file") (s "${{ x }}") (s "${{ file }}") := by
    have := Replaced.put (x := s "x") (by' := (IsRef · (s "file"))) ref_x ref_file .nil
    simp only [List.append_nil] at this
    exact ⟨by unfold NoNul; decide +kernel, this⟩
  have text : Spec.RenameVar.Text (s "x") (s "file") (s "cc $F ${{ x }}.c") (s "cc $F ${{ file }}.c") :=
    ⟨by unfold NoNul; decide +kernel, file_text⟩
  have run : Spec.RenameVar.Items (s "x") (s "file") [cmd "cc $F ${{ x }}.c"] [cmd "cc $F ${{ file }}.c"] :=
    .command ⟨rfl, text, none, .nil, none⟩ .nil
  have wa : ∀ {v w text : String}, v.toList ∉ extractVarRefs 0 w.toList → v.toList ∉ extractVarRefs 0 text.toList →
      Spec.Values.Without (useAll w text) v.toList ∧ Spec.Values.Without (useLib text) v.toList := by
    intro v w text h1 h2
    have it : ∀ it ∈ [cmd text], ¬ Mentions it.cond v.toList ∧ match it with
        | .command u => ¬ Mentions u.cmd v.toList ∧ ¬ Mentions u.dir v.toList ∧ ∀ p ∈ u.env, ¬ Mentions p.2 v.toList
        | .log l => ¬ Mentions l.log v.toList
        | .parallel items _ _ _ _ _ _ _ _ _ => (∀ u, .command u ∈ items → ¬ Mentions u.cmd v.toList ∧ ¬ Mentions u.dir v.toList ∧
            ∀ p ∈ u.env, ¬ Mentions p.2 v.toList) ∧ ∀ l, .log l ∈ items → ¬ Mentions l.log v.toList
        | _ => True := by
      intro it hit
      simp only [List.mem_singleton] at hit
      subst hit
      exact ⟨without (by simp [extractVarRefs, cmd, RunItem.cond]), without h2, without (by simp [extractVarRefs]), nofun⟩
    exact ⟨⟨without h1, without (by simp [useAll, extractVarRefs]), nofun, nofun, it⟩,
      ⟨without (by simp [useLib, extractVarRefs]), without (by simp [useLib, extractVarRefs]), nofun, nofun, it⟩⟩
  have vals : ∀ k w, value forX.get? (Cfg.env {}) k = some w → NoNul w := by
    intro k w hk
    by_cases he : IsEnv k
    · obtain ⟨z, rfl⟩ := he
      have hk : some ((Cfg.env {} z).getD []) = some w := hk
      cases hk
      unfold NoNul
      exact List.not_mem_nil
    · rw [value_var _ _ he] at hk
      have := GoMap.mem_of_get? hk
      simp only [forX, List.mem_cons, Prod.mk.injEq, List.not_mem_nil, or_false] at this
      rcases this with ⟨-, rfl⟩ | ⟨-, rfl⟩ <;> (unfold NoNul; decide +kernel)
  have mem : ∀ k T, usesX.get? k = some T → (k = s "all" ∧ T = useAll "${{ x }}" "cc $F ${{ x }}.c") ∨ (k = s "lib" ∧ T = useLib "cc $F ${{ x }}.c") := by
    intro k T h
    have := GoMap.mem_of_get? h
    simpa [usesX] using this
  have mem' : ∀ k T, usesFile.get? k = some T → T.env = [] := by
    intro k T h
    have := GoMap.mem_of_get? h
    simp only [usesFile, List.mem_cons, Prod.mk.injEq, List.not_mem_nil, or_false] at this
    rcases this with ⟨-, rfl⟩ | ⟨-, rfl⟩ <;> rfl
  refine ⟨by decide +kernel, by decide +kernel, by decide +kernel, fun k h1 h2 => ?_, fun k T hT => ?_, fun k hk => ?_, ?_, ?_,
    ⟨without (by decide +kernel), without (by decide +kernel)⟩, nofun, fun k T m tenv hT _ ht => ?_, fun k T m tenv hT _ ht => ?_, vals,
    fun n T m hT hm => ?_⟩
  · simp [forX, forFile, GoMap.get?, Ne.symm h1, Ne.symm h2]
  · rcases mem k T hT with ⟨rfl, rfl⟩ | ⟨rfl, rfl⟩
    · exact ⟨useAll "${{ file }}" "cc $F ${{ file }}.c", rfl, rfl, rfl, rfl, cond, none, .nil, run,
        (wa (by decide +kernel) (by decide +kernel)).1, (wa (by decide +kernel) (by decide +kernel)).1⟩
    · exact ⟨useLib "cc $F ${{ file }}.c", rfl, rfl, rfl, rfl, none, none, .nil, run,
        (wa (w := "") (by decide +kernel) (by decide +kernel)).2, (wa (w := "") (by decide +kernel) (by decide +kernel)).2⟩
  · by_cases e : k = s "all"
    · subst e; revert hk; decide +kernel
    · by_cases e' : k = s "lib"
      · subst e'; revert hk; decide +kernel
      · simp [usesFile, GoMap.get?, Ne.symm e, Ne.symm e']
  · rintro ⟨z, h⟩
    exact absurd (congrArg List.head? h) (by simp [s])
  · rintro ⟨z, h⟩
    exact absurd (congrArg List.head? h) (by simp [s])
  · rcases mem k T hT with ⟨rfl, rfl⟩ | ⟨rfl, rfl⟩ <;> (cases ht; nofun)
  · rw [mem' k T hT] at ht
    cases ht; nofun
  · have : T.vars = Option.none := by rcases mem n T hT with ⟨rfl, rfl⟩ | ⟨rfl, rfl⟩ <;> rfl
    rw [this] at hm
    cases hm
    exact vals

def usesXRun : State := drive [.auto 400] (start {} usesX forX (s "all"))
def usesFileRun : State := drive [.auto 400] (start {} usesFile forFile (s "all"))

theorem usesX_unasked : Unasked {} usesX forX (s "all") := by
  intro n T p _ hT hp
  have := GoMap.mem_of_get? hT
  simp only [usesX, List.mem_cons, Prod.mk.injEq, List.not_mem_nil, or_false] at this
  rcases this with ⟨-, rfl⟩ | ⟨-, rfl⟩ <;> simp [useAll, useLib, cmd] at hp

example : (Spec.entries usesFileRun.sh.trace).Perm (Spec.entries usesXRun.sh.trace) ∧
    Spec.entries usesFileRun.sh.trace = [.cmd ⟨s "lib", 0, none⟩ (s "cc $F /o/a.c"), .cmd ⟨s "all", 0, none⟩ (s "cc $F /o/a.c")] ∧ Separate usesX :=
  ⟨C127_global usesFile_renames rfl usesX_unasked (reach _ _) (ret_of_result (by decide +kernel)) (calm_of (by decide +kernel))
    (reach _ _) (ret_of_result (by decide +kernel)) (calm_of (by decide +kernel)), by decide +kernel, no_blocks (by decide +kernel)⟩

/-- a task that uses its own variable next to one for all tasks, before and after its own one takes the name of the other -/
def besides (own use : String) : TaskMap := [(s "all", { name := s "all", vars := some [(s own, s "1")], run := [cmd use] })]

/-- a task with a condition about its own variable, which is one for all tasks at that time -/
def guarded (own use : String) : TaskMap :=
  [(s "all", { name := s "all", vars := some [(s own, s "1")], cond := s use, run := [cmd "make"] })]

end Sample

open Sample in
/-- **C127** Limits of the property. The new name must be free: otherwise references to a variable for all tasks are taken over. And a
reference in the condition of the task must not be renamed: it never was one to the variable of the task. -/
theorem C127_limits :
    (Spec.entries (Exec.drive [.auto 400] (start {} (besides "x" "echo ${{ x }} ${{ y }}") [(s "y", s "0")] (s "all"))).sh.trace =
        [.cmd ⟨s "all", 0, none⟩ (s "echo 1 0")] ∧
      Spec.entries (Exec.drive [.auto 400] (start {} (besides "y" "echo ${{ y }} ${{ y }}") [(s "y", s "0")] (s "all"))).sh.trace =
        [.cmd ⟨s "all", 0, none⟩ (s "echo 1 1")]) ∧
    (Exec.result (Exec.drive [.auto 400] (start {} (guarded "x" "${{ x }}") [(s "x", s "0")] (s "all"))) = some none ∧
      (Exec.result (Exec.drive [.auto 400] (start {} (guarded "y" "${{ y }}") [(s "x", s "0")] (s "all")))).map (fun e => e.map cause) =
        some (some (Err.varNotFound (s "y")))) := by
  decide +kernel

end Bab
