import Verif.Proof.Split
import Verif.Proof.Plan
/-
Lemmas for C112: the plan of a task after items were moved to a task of their own.
-/

namespace Bab
open Spec

namespace Split

/-- the items of a task, with a given meaning `Q` of the tasks they call -/
inductive Its (c : Cfg) (Q : Str → List Str → List PlanEntry → Option (List Str) → Prop) (n : Str) (T : Task) (m tenv : GoMap Str) :
    Nat → List RunItem → Bool → List Str → List PlanEntry → Option (List Str) → Prop
  | end {i D} : Its c Q n T m tenv i [] true D [] (some D)
  | nothing {i D} : Its c Q n T m tenv i [] false D [] none
  | elsewhere {i it its any D es r} : it.onPlatform c.platform = false →
      Its c Q n T m tenv (i + 1) its any D es r → Its c Q n T m tenv i (it :: its) any D es r
  | wrongItem {i it its any D} : it.onPlatform c.platform = true → CondWrong c it.cond m → Its c Q n T m tenv i (it :: its) any D [] none
  | skippedItem {i it its any D es r} : it.onPlatform c.platform = true → CondFalse c it.cond m →
      Its c Q n T m tenv (i + 1) its true D es r → Its c Q n T m tenv i (it :: its) any D es r
  | cmd {i v its any D text es r} : (RunItem.command v).onPlatform c.platform = true → CondTrue c v.cond m → CmdReady c T v tenv m text →
      Its c Q n T m tenv (i + 1) its true D es r → Its c Q n T m tenv i (.command v :: its) any D (.cmd ⟨n, i, none⟩ text :: es) r
  | badCmd {i v its any D} : (RunItem.command v).onPlatform c.platform = true → CondTrue c v.cond m → (∀ text, ¬ CmdReady c T v tenv m text) →
      Its c Q n T m tenv i (.command v :: its) any D [] none
  | log {i l its any D text es r} : (RunItem.log l).onPlatform c.platform = true → CondTrue c l.cond m → interpolate l.log ⟨m, c.env⟩ = .ok text →
      Its c Q n T m tenv (i + 1) its true D es r → Its c Q n T m tenv i (.log l :: its) any D (.log ⟨n, i, none⟩ text l.level :: es) r
  | badLog {i l its any D e} : (RunItem.log l).onPlatform c.platform = true → CondTrue c l.cond m → interpolate l.log ⟨m, c.env⟩ = .error e →
      Its c Q n T m tenv i (.log l :: its) any D [] none
  | call {i t its any D es D1 es' r} : (RunItem.task t).onPlatform c.platform = true → CondTrue c t.cond m → Q t.task D es (some D1) →
      Its c Q n T m tenv (i + 1) its true D1 es' r → Its c Q n T m tenv i (.task t :: its) any D (es ++ es') r
  | callFails {i t its any D es} : (RunItem.task t).onPlatform c.platform = true → CondTrue c t.cond m → Q t.task D es none →
      Its c Q n T m tenv i (.task t :: its) any D es none

section
variable {c : Cfg} {Q : Str → List Str → List PlanEntry → Option (List Str) → Prop} {n : Str} {T : Task} {m tenv : GoMap Str} {i : Nat}
  {a b : List RunItem} {any : Bool} {D D1 : List Str} {es es2 : List PlanEntry} {r : Option (List Str)}

theorem its_plan {tasks : TaskMap} {g : GoMap Str} {S : List Str}
    (h : Its c (fun k => Spec.Plan c tasks g true S (.task k)) n T m tenv i a any D es r) : Spec.Plan c tasks g true S (.items n T m tenv i a any) D es r := by
  induction h with
  | «end» => exact .end
  | nothing => exact .nothing
  | elsewhere h1 _ ih => exact .elsewhere h1 ih
  | wrongItem h1 h2 => exact .wrongItem h1 h2
  | skippedItem h1 h2 _ ih => exact .skippedItem h1 h2 ih
  | cmd h1 h2 h3 _ ih => exact .cmd h1 h2 h3 ih
  | badCmd h1 h2 h3 => exact .badCmd h1 h2 h3
  | log h1 h2 h3 _ ih => exact .log h1 h2 h3 ih
  | badLog h1 h2 h3 => exact .badLog h1 h2 h3
  | call h1 h2 h3 _ ih => exact .call rfl h1 h2 h3 ih
  | callFails h1 h2 h3 => exact .callFails rfl h1 h2 h3

/-- items one after the other -/
theorem its_split (h : Its c Q n T m tenv i (a ++ b) any D es r) :
    (r = none ∧ Its c Q n T m tenv i a true D es none) ∨
    ∃ es1 D1 es2, es = es1 ++ es2 ∧ Its c Q n T m tenv i a true D es1 (some D1) ∧
      Its c Q n T m tenv (i + a.length) b (any || a.any (·.onPlatform c.platform)) D1 es2 r := by
  induction a generalizing i any D es with
  | nil => exact .inr ⟨[], D, es, rfl, .end, by simpa using h⟩
  | cons it a ih =>
    have len : i + (it :: a).length = i + 1 + a.length := by simp; omega
    rw [len]
    cases h with
    | elsewhere h1 h2 =>
      rcases ih h2 with ⟨rfl, h⟩ | ⟨es1, D1, es2, rfl, h3, h4⟩
      · exact .inl ⟨rfl, .elsewhere h1 h⟩
      · exact .inr ⟨es1, D1, es2, rfl, .elsewhere h1 h3, by simpa [h1] using h4⟩
    | wrongItem h1 h2 => exact .inl ⟨rfl, .wrongItem h1 h2⟩
    | skippedItem h1 h2 h3 =>
      rcases ih h3 with ⟨rfl, h⟩ | ⟨es1, D1, es2, rfl, h4, h5⟩
      · exact .inl ⟨rfl, .skippedItem h1 h2 h⟩
      · exact .inr ⟨es1, D1, es2, rfl, .skippedItem h1 h2 h4, by simpa [h1] using h5⟩
    | cmd h1 h2 h3 h4 =>
      rcases ih h4 with ⟨rfl, h⟩ | ⟨es1, D1, es2, rfl, h5, h6⟩
      · exact .inl ⟨rfl, .cmd h1 h2 h3 h⟩
      · exact .inr ⟨_ :: es1, D1, es2, rfl, .cmd h1 h2 h3 h5, by simpa [h1] using h6⟩
    | badCmd h1 h2 h3 => exact .inl ⟨rfl, .badCmd h1 h2 h3⟩
    | log h1 h2 h3 h4 =>
      rcases ih h4 with ⟨rfl, h⟩ | ⟨es1, D1, es2, rfl, h5, h6⟩
      · exact .inl ⟨rfl, .log h1 h2 h3 h⟩
      · exact .inr ⟨_ :: es1, D1, es2, rfl, .log h1 h2 h3 h5, by simpa [h1] using h6⟩
    | badLog h1 h2 h3 => exact .inl ⟨rfl, .badLog h1 h2 h3⟩
    | call h1 h2 h3 h4 =>
      rcases ih h4 with ⟨rfl, h⟩ | ⟨es1, D1, es2, rfl, h5, h6⟩
      · exact .inl ⟨rfl, .call h1 h2 h3 h⟩
      · exact .inr ⟨_ ++ es1, D1, es2, by rw [List.append_assoc], .call h1 h2 h3 h5, by simpa [h1] using h6⟩
    | callFails h1 h2 h3 => exact .inl ⟨rfl, .callFails h1 h2 h3⟩

theorem its_glue (h : Its c Q n T m tenv i a true D es (some D1))
    (h' : Its c Q n T m tenv (i + a.length) b (any || a.any (·.onPlatform c.platform)) D1 es2 r) :
    Its c Q n T m tenv i (a ++ b) any D (es ++ es2) r := by
  induction a generalizing i any D es with
  | nil => cases h; simpa using h'
  | cons it a ih =>
    have len : i + (it :: a).length = i + 1 + a.length := by simp; omega
    rw [len] at h'
    cases h with
    | elsewhere h1 h2 => exact .elsewhere h1 (ih h2 (by simpa [h1] using h'))
    | skippedItem h1 h2 h3 => exact .skippedItem h1 h2 (ih h3 (by simpa [h1] using h'))
    | cmd h1 h2 h3 h4 => exact .cmd h1 h2 h3 (ih h4 (by simpa [h1] using h'))
    | log h1 h2 h3 h4 => exact .log h1 h2 h3 (ih h4 (by simpa [h1] using h'))
    | call h1 h2 h3 h4 =>
      rw [List.append_assoc]
      exact .call h1 h2 h3 (ih h4 (by simpa [h1] using h'))

theorem its_glue_fail (h : Its c Q n T m tenv i a true D es none) : Its c Q n T m tenv i (a ++ b) any D es none := by
  induction a generalizing i any D es with
  | nil => cases h
  | cons it a ih =>
    cases h with
    | elsewhere h1 h2 => exact .elsewhere h1 (ih h2)
    | wrongItem h1 h2 => exact .wrongItem h1 h2
    | skippedItem h1 h2 h3 => exact .skippedItem h1 h2 (ih h3)
    | cmd h1 h2 h3 h4 => exact .cmd h1 h2 h3 (ih h4)
    | badCmd h1 h2 h3 => exact .badCmd h1 h2 h3
    | log h1 h2 h3 h4 => exact .log h1 h2 h3 (ih h4)
    | badLog h1 h2 h3 => exact .badLog h1 h2 h3
    | call h1 h2 h3 h4 => exact .call h1 h2 h3 (ih h4)
    | callFails h1 h2 h3 => exact .callFails h1 h2 h3

/-- whether something was executed before does not matter if there is an item for this platform -/
theorem its_any (ha : ∃ it ∈ a, it.onPlatform c.platform = true) {any' : Bool} (h : Its c Q n T m tenv i a any D es r) :
    Its c Q n T m tenv i a any' D es r := by
  induction a generalizing i any any' D es with
  | nil => obtain ⟨_, h, -⟩ := ha; cases h
  | cons it a ih =>
    cases h with
    | elsewhere h1 h2 =>
      refine .elsewhere h1 (ih ?_ h2)
      obtain ⟨it', h3, h4⟩ := ha
      rcases List.mem_cons.mp h3 with rfl | h3
      · rw [h1] at h4; cases h4
      · exact ⟨it', h3, h4⟩
    | wrongItem h1 h2 => exact .wrongItem h1 h2
    | skippedItem h1 h2 h3 => exact .skippedItem h1 h2 h3
    | cmd h1 h2 h3 h4 => exact .cmd h1 h2 h3 h4
    | badCmd h1 h2 h3 => exact .badCmd h1 h2 h3
    | log h1 h2 h3 h4 => exact .log h1 h2 h3 h4
    | badLog h1 h2 h3 => exact .badLog h1 h2 h3
    | call h1 h2 h3 h4 => exact .call h1 h2 h3 h4
    | callFails h1 h2 h3 => exact .callFails h1 h2 h3

end

section
variable {c : Cfg} {tasks : TaskMap} {g : GoMap Str} {n x : Str} {T : Task} {pre mid post : List RunItem}

local notation "new" => moveItems tasks n T x pre mid post
local notation "old" => oldEntry n x pre.length mid.length

/-- the same names, apart from the new one -/
def But (x : Str) (D D' : List Str) : Prop := ∀ k, k ≠ x → (k ∈ D ↔ k ∈ D')

theorem But.cons {D D' : List Str} (h : But x D D') (k : Str) : But x (k :: D) (k :: D') := by
  intro j hj
  rw [List.mem_cons, List.mem_cons, h j hj]

theorem But.extra {D D' : List Str} (h : But x D D') : But x D (x :: D') := by
  intro j hj
  rw [List.mem_cons, h j hj]
  exact ⟨.inr, fun e => e.resolve_left hj⟩

/-- how the tasks that have begun (`S`) and those that are done (`D`) are related; the new task begins and ends within `n` -/
structure Ctxt (n x : Str) (S S' D D' : List Str) : Prop where
  begun : But x S S'
  done : But x D D'
  within : x ∈ S' → n ∈ S
  after : x ∈ D' → n ∈ D ∨ n ∈ S

/-- how the results are related; `D0` are the tasks that were done before -/
inductive Res (n x : Str) (S D0 : List Str) : Option (List Str) → Option (List Str) → Prop
  | fail : Res n x S D0 none none
  | ok {D D'} (h1 : But x D D') (h2 : x ∈ D' → n ∈ D ∨ n ∈ S) (h3 : n ∈ S → x ∈ D' → x ∈ D0) : Res n x S D0 (some D) (some D')

/-- what a job does, it does after the move -/
def Sim (c : Cfg) (tasks' : TaskMap) (g : GoMap Str) (n x : Str) (f : PlanEntry → PlanEntry) (S : List Str) (k : Str) (D : List Str) (es : List PlanEntry)
    (r : Option (List Str)) : Prop :=
  k ≠ x → ∀ S' D', Ctxt n x S S' D D' → ∃ es' r', Spec.Plan c tasks' g true S' (.task k) D' es' r' ∧ es'.map f = es ∧ Res n x S D' r r'

theorem Res.trans {S D0 D1 : List Str} {r r' : Option (List Str)} (h : Res n x S D1 r r') (h0 : n ∈ S → x ∈ D1 → x ∈ D0) : Res n x S D0 r r' := by
  cases h with
  | fail => exact .fail
  | ok h1 h2 h3 => exact .ok h1 h2 fun a b => h0 a (h3 a b)

/-- the items, at their new place -/
theorem its_new {tasks' : TaskMap} {n0 n' : Str} {T0 T' : Task} {m tenv : GoMap Str} {S S' : List Str} {i i' : Nat} {its : List RunItem}
    {any : Bool} {D : List Str} {es : List PlanEntry} {r : Option (List Str)}
    (hdir : ∀ d ctx, resolveDir c T' d ctx = resolveDir c T0 d ctx)
    (h : Its c (Sim c tasks' g n x old S) n0 T0 m tenv i its any D es r) (hcalls : ∀ t, .task t ∈ its → t.task ≠ x)
    (hloc : ∀ k, k < its.length → oldPlace n x pre.length mid.length ⟨n', i' + k, none⟩ = ⟨n0, i + k, none⟩)
    {D' : List Str} (hC : Ctxt n x S S' D D') :
    ∃ es' r', Its c (fun k => Spec.Plan c tasks' g true S' (.task k)) n' T' m tenv i' its any D' es' r' ∧ es'.map old = es ∧ Res n x S D' r r' := by
  have ready : ∀ {v text}, CmdReady c T' v tenv m text ↔ CmdReady c T0 v tenv m text := by
    intro v text
    unfold CmdReady
    rw [hdir]
  induction h generalizing i' D' with
  | «end» => exact ⟨[], _, .end, rfl, .ok hC.done hC.after fun _ h => h⟩
  | nothing => exact ⟨[], _, .nothing, rfl, .fail⟩
  | @elsewhere i it its any D es r h1 _ ih =>
    obtain ⟨es', r', k1, k2, k3⟩ := ih (i' := i' + 1) (fun t ht => hcalls t (List.mem_cons_of_mem _ ht))
      (fun k hk => by have := hloc (k + 1) (by simpa using hk); rw [show i' + 1 + k = i' + (k + 1) by omega, show i + 1 + k = i + (k + 1) by omega]; exact this) hC
    exact ⟨es', r', .elsewhere h1 k1, k2, k3⟩
  | wrongItem h1 h2 => exact ⟨[], _, .wrongItem h1 h2, rfl, .fail⟩
  | @skippedItem i it its any D es r h1 h2 _ ih =>
    obtain ⟨es', r', k1, k2, k3⟩ := ih (i' := i' + 1) (fun t ht => hcalls t (List.mem_cons_of_mem _ ht))
      (fun k hk => by have := hloc (k + 1) (by simpa using hk); rw [show i' + 1 + k = i' + (k + 1) by omega, show i + 1 + k = i + (k + 1) by omega]; exact this) hC
    exact ⟨es', r', .skippedItem h1 h2 k1, k2, k3⟩
  | @cmd i v its any D text es r h1 h2 h3 _ ih =>
    obtain ⟨es', r', k1, k2, k3⟩ := ih (i' := i' + 1) (fun t ht => hcalls t (List.mem_cons_of_mem _ ht))
      (fun k hk => by have := hloc (k + 1) (by simpa using hk); rw [show i' + 1 + k = i' + (k + 1) by omega, show i + 1 + k = i + (k + 1) by omega]; exact this) hC
    refine ⟨_, r', .cmd h1 h2 (ready.mpr h3) k1, ?_, k3⟩
    have := hloc 0 (by simp)
    rw [List.map_cons, k2]
    simp only [oldEntry]
    simp only [Nat.add_zero] at this
    rw [this]
  | badCmd h1 h2 h3 => exact ⟨[], _, .badCmd h1 h2 (fun text h => h3 text (ready.mp h)), rfl, .fail⟩
  | @log i l its any D text es r h1 h2 h3 _ ih =>
    obtain ⟨es', r', k1, k2, k3⟩ := ih (i' := i' + 1) (fun t ht => hcalls t (List.mem_cons_of_mem _ ht))
      (fun k hk => by have := hloc (k + 1) (by simpa using hk); rw [show i' + 1 + k = i' + (k + 1) by omega, show i + 1 + k = i + (k + 1) by omega]; exact this) hC
    refine ⟨_, r', .log h1 h2 h3 k1, ?_, k3⟩
    have := hloc 0 (by simp)
    rw [List.map_cons, k2]
    simp only [oldEntry]
    simp only [Nat.add_zero] at this
    rw [this]
  | badLog h1 h2 h3 => exact ⟨[], _, .badLog h1 h2 h3, rfl, .fail⟩
  | @call i t its any D es D1 es' r h1 h2 h3 _ ih =>
    obtain ⟨es1, r1, k1, k2, k3⟩ := h3 (hcalls t (by simp)) S' D' hC
    cases k3 with
    | @ok _ D1' j1 j2 j3 =>
      obtain ⟨es2, r2, l1, l2, l3⟩ := ih (i' := i' + 1) (D' := D1') (fun t ht => hcalls t (List.mem_cons_of_mem _ ht))
        (fun k hk => by have := hloc (k + 1) (by simpa using hk); rw [show i' + 1 + k = i' + (k + 1) by omega, show i + 1 + k = i + (k + 1) by omega]; exact this)
        ⟨hC.begun, j1, hC.within, j2⟩
      exact ⟨es1 ++ es2, r2, .call h1 h2 k1 l1, by rw [List.map_append, k2, l2], l3.trans j3⟩
  | @callFails i t its any D es h1 h2 h3 =>
    obtain ⟨es1, r1, k1, k2, k3⟩ := h3 (hcalls t (by simp)) S' D' hC
    cases k3
    exact ⟨es1, none, .callFails h1 h2 k1, k2, .fail⟩

theorem Ctxt.start {S S' D D' : List Str} (h : Ctxt n x S S' D D') {k : Str} (hk : k ≠ x) : Ctxt n x (k :: S) (k :: S') D D' where
  begun := h.begun.cons k
  done := h.done
  within := fun e => by
    rcases List.mem_cons.mp e with rfl | e
    · exact absurd rfl hk
    · exact List.mem_cons_of_mem _ (h.within e)
  after := fun e => (h.after e).imp id (List.mem_cons_of_mem _)

theorem Res.finish {S D0 : List Str} {k : Str} (hk : k ≠ x) {r r' : Option (List Str)} (h : Res n x (k :: S) D0 r r') :
    Res n x S D0 (r.map (k :: ·)) (r'.map (k :: ·)) := by
  cases h with
  | fail => exact .fail
  | ok h1 h2 h3 =>
    refine .ok (h1.cons k) (fun e => ?_) (fun e1 e2 => ?_)
    · rcases List.mem_cons.mp e with rfl | e
      · exact absurd rfl hk
      · rcases h2 e with h | h
        · exact .inl (List.mem_cons_of_mem _ h)
        · rcases List.mem_cons.mp h with rfl | h
          · exact .inl (List.mem_cons_self ..)
          · exact .inr h
    · rcases List.mem_cons.mp e2 with rfl | e2
      · exact absurd rfl hk
      · exact h3 (List.mem_cons_of_mem _ e1) e2

/-- what is to be done is done after the move, in the same order -/
def Motive (c : Cfg) (tasks' : TaskMap) (g : GoMap Str) (n x : Str) (f : PlanEntry → PlanEntry) (S : List Str) (j : Job) (D : List Str)
    (es : List PlanEntry) (r : Option (List Str)) : Prop :=
  match j with
  | .task k => Sim c tasks' g n x f S k D es r
  | .deps ds => x ∉ ds → ∀ S' D', Ctxt n x S S' D D' →
      ∃ es' r', Spec.Plan c tasks' g true S' (.deps ds) D' es' r' ∧ es'.map f = es ∧ Res n x S D' r r'
  | .items n0 T0 m tenv i its any => Its c (Sim c tasks' g n x f S) n0 T0 m tenv i its any D es r

theorem callsIn_of_mem {t : TaskRun} {its : List RunItem} (h : .task t ∈ its) : CallsIn t.task its := Plan.calls_of_mem h

theorem plan_new (hT : tasks.get? n = some T) (hrun : T.run = pre ++ mid ++ post) (hx : tasks.get? x = none) (hno : ∀ a, ¬ Refers tasks a x)
    (hmid : ∃ it ∈ mid, it.onPlatform c.platform = true) {S D : List Str} {j : Job} {es : List PlanEntry} {r : Option (List Str)}
    (h : Spec.Plan c tasks g true S j D es r) : Motive c (new) g n x old S j D es r := by
  have xn := x_ne hT hx
  have hmem : ∀ {it}, it ∈ pre ∨ it ∈ mid ∨ it ∈ post → it ∈ T.run := by
    intro it h
    rw [hrun]; simp; tauto
  have hne : T.run ≠ [] := by
    obtain ⟨it, h1, -⟩ := hmid
    exact List.ne_nil_of_mem (hmem (.inr (.inl h1)))
  have hdeps : ∀ {k U}, tasks.get? k = some U → x ∉ U.deps := fun hU h => hno _ ⟨_, hU, .inl h⟩
  have hcall : ∀ {k U}, tasks.get? k = some U → ∀ t, .task t ∈ U.run → t.task ≠ x :=
    fun hU t ht e => hno _ ⟨_, hU, .inr (e ▸ callsIn_of_mem ht)⟩
  -- the task after the move
  have task : ∀ {k U}, k ≠ x → tasks.get? k = some U → ∃ U', (new).get? k = some U' ∧ U'.cond = U.cond ∧ U'.deps = U.deps ∧ U'.vars = U.vars ∧
      U'.env = U.env ∧ (U.run = [] → U'.run = []) ∧ (U.run ≠ [] → U'.run ≠ []) := by
    intro k U hk hU
    by_cases e : k = n
    · subst e
      rw [hT] at hU; cases hU
      exact ⟨_, new_n hT hx, rfl, rfl, rfl, rfl, fun h => absurd h hne, fun _ => by simp⟩
    · exact ⟨U, (new_other e hk).trans hU, rfl, rfl, rfl, rfl, id, id⟩
  induction h with
  | done h => exact fun hk S' D' hC => ⟨[], _, .done ((hC.done _ hk).mp h), rfl, .ok hC.done hC.after fun _ h => h⟩
  | circle h1 h2 =>
    exact fun hk S' D' hC => ⟨[], _, .circle (fun h => h1 ((hC.done _ hk).mpr h)) ((hC.begun _ hk).mp h2), rfl, .fail⟩
  | @unknown S k D h1 h2 h3 =>
    intro hk S' D' hC
    have e : k ≠ n := by rintro rfl; rw [hT] at h3; cases h3
    exact ⟨[], _, .unknown (fun h => h1 ((hC.done _ hk).mpr h)) (fun h => h2 ((hC.begun _ hk).mpr h)) ((new_other e hk).trans h3), rfl, .fail⟩
  | wrong h1 h2 h3 h4 =>
    intro hk S' D' hC
    obtain ⟨U', u1, u2, -⟩ := task hk h3
    exact ⟨[], _, .wrong (fun h => h1 ((hC.done _ hk).mpr h)) (fun h => h2 ((hC.begun _ hk).mpr h)) u1 (u2 ▸ h4), rfl, .fail⟩
  | @skipped S k D U h1 h2 h3 h4 =>
    intro hk S' D' hC
    obtain ⟨U', u1, u2, -⟩ := task hk h3
    have := (Res.ok (D0 := D') (hC.start hk).done (hC.start hk).after fun _ h => h).finish hk
    exact ⟨[], _, .skipped (fun h => h1 ((hC.done _ hk).mpr h)) (fun h => h2 ((hC.begun _ hk).mpr h)) u1 (u2 ▸ h4), rfl, this⟩
  | depsFail h1 h2 h3 h4 _ ih =>
    intro hk S' D' hC
    obtain ⟨U', u1, u2, u3, -⟩ := task hk h3
    obtain ⟨es', r', k1, k2, k3⟩ := ih (hdeps h3) _ _ (hC.start hk)
    cases k3
    exact ⟨es', none, .depsFail (fun h => h1 ((hC.done _ hk).mpr h)) (fun h => h2 ((hC.begun _ hk).mpr h)) u1 (u2 ▸ h4) (u3 ▸ k1), k2, .fail⟩
  | noItems h1 h2 h3 h4 _ h6 ih =>
    intro hk S' D' hC
    obtain ⟨U', u1, u2, u3, -, -, u6, -⟩ := task hk h3
    obtain ⟨es', r', k1, k2, k3⟩ := ih (hdeps h3) _ _ (hC.start hk)
    have k4 := k3.finish hk
    cases k3
    exact ⟨es', _, .noItems (fun h => h1 ((hC.done _ hk).mpr h)) (fun h => h2 ((hC.begun _ hk).mpr h)) u1 (u2 ▸ h4) (u3 ▸ k1) (u6 h6), k2, k4⟩
  | badVars h1 h2 h3 h4 _ h6 h7 ih =>
    intro hk S' D' hC
    obtain ⟨U', u1, u2, u3, u4, -, -, u7⟩ := task hk h3
    obtain ⟨es', r', k1, k2, k3⟩ := ih (hdeps h3) _ _ (hC.start hk)
    cases k3
    exact ⟨es', _, .badVars (fun h => h1 ((hC.done _ hk).mpr h)) (fun h => h2 ((hC.begun _ hk).mpr h)) u1 (u2 ▸ h4) (u3 ▸ k1) (u7 h6) (u4 ▸ h7), k2, .fail⟩
  | badEnv h1 h2 h3 h4 _ h6 h7 h8 ih =>
    intro hk S' D' hC
    obtain ⟨U', u1, u2, u3, u4, u5, -, u7⟩ := task hk h3
    obtain ⟨es', r', k1, k2, k3⟩ := ih (hdeps h3) _ _ (hC.start hk)
    cases k3
    exact ⟨es', _, .badEnv (fun h => h1 ((hC.done _ hk).mpr h)) (fun h => h2 ((hC.begun _ hk).mpr h)) u1 (u2 ▸ h4) (u3 ▸ k1) (u7 h6) (u4 ▸ h7) (u5 ▸ h8), k2, .fail⟩
  | @runs S k D U es D1 m tenv es' r h1 h2 h3 h4 _ h6 h7 h8 _ ih1 ih2 =>
    intro hk S' D' hC
    have hC1 := hC.start hk
    obtain ⟨e1, r1, k1, k2, k3⟩ := ih1 (hdeps h3) _ _ hC1
    cases k3 with
    | @ok _ D1' j1 j2 j3 =>
      have hC2 : Ctxt n x (k :: S) (k :: S') D1 D1' := ⟨hC1.begun, j1, hC1.within, j2⟩
      have h1' : k ∉ D' := fun h => h1 ((hC.done _ hk).mpr h)
      have h2' : k ∉ S' := fun h => h2 ((hC.begun _ hk).mpr h)
      by_cases e : k = n
      · subst e
        rw [hT] at h3; cases h3
        have hx0 : x ∉ D1' := fun h => (hC.after (j3 (List.mem_cons_self ..) h)).elim h1 h2
        have hxS : x ∉ S' := fun h => h2 (hC.within h)
        -- it is enough to give the items
        have reduce : (∃ es2 r2, Its c (fun q => Spec.Plan c (moveItems tasks k T x pre mid post) g true (k :: S') (.task q)) k
            { T with run := pre ++ .task { task := x } :: post } m tenv 0 (pre ++ .task { task := x } :: post) false D1' es2 r2 ∧
            es2.map (oldEntry k x pre.length mid.length) = es' ∧ ((r = none ∧ r2 = none) ∨ ∃ F F', r = some F ∧ r2 = some F' ∧ But x F F')) →
            ∃ es2 r2, Spec.Plan c (moveItems tasks k T x pre mid post) g true S' (.task k) D' es2 r2 ∧
              es2.map (oldEntry k x pre.length mid.length) = es ++ es' ∧ Res k x S D' (r.map (k :: ·)) r2 := by
          rintro ⟨es2, r2, l1, l2, l3⟩
          refine ⟨e1 ++ es2, r2.map (k :: ·), .runs (T := { T with run := pre ++ .task { task := x } :: post }) h1' h2' (new_n hT hx) h4 k1
            (by simp) h7 h8 (its_plan l1), by rw [List.map_append, k2, l2], ?_⟩
          rcases l3 with ⟨rfl, rfl⟩ | ⟨F, F', rfl, rfl, hF⟩
          · exact .fail
          · exact .ok (hF.cons k) (fun _ => .inl (List.mem_cons_self ..)) (fun e => absurd e h2)
        apply reduce
        have hdir : ∀ d ctx, resolveDir c { T with run := pre ++ .task { task := x } :: post } d ctx = resolveDir c T d ctx := fun _ _ => rfl
        have hdirX : ∀ d ctx, resolveDir c (ownTask T x mid) d ctx = resolveDir c T d ctx := fun _ _ => rfl
        have ih2 : Its c (Sim c (moveItems tasks k T x pre mid post) g k x (oldEntry k x pre.length mid.length) (k :: S)) k T m tenv 0 T.run false D1 es' r := ih2
        rw [hrun, List.append_assoc] at ih2
        have cpre : ∀ t, .task t ∈ pre → t.task ≠ x := fun t ht => hcall hT t (hmem (.inl ht))
        have cmid : ∀ t, .task t ∈ mid → t.task ≠ x := fun t ht => hcall hT t (hmem (.inr (.inl ht)))
        have cpost : ∀ t, .task t ∈ post → t.task ≠ x := fun t ht => hcall hT t (hmem (.inr (.inr ht)))
        have lpre : ∀ q, q < pre.length → oldPlace k x pre.length mid.length ⟨k, 0 + q, none⟩ = ⟨k, 0 + q, none⟩ := by
          intro q hq
          unfold oldPlace
          rw [if_neg hk, if_neg (fun h => by have := h.2; dsimp only at this; omega)]
        have callX : (RunItem.task { task := x }).onPlatform c.platform = true := by simp [RunItem.onPlatform, RunItem.platforms, matchesPlatform]
        have condX : CondTrue c ({ task := x } : TaskRun).cond m := by simp [CondTrue, evaluate]
        rcases its_split ih2 with ⟨rfl, hp⟩ | ⟨es1, D2, es2, rfl, hp, hq⟩
        · obtain ⟨es3, r3, l1, l2, l3⟩ := its_new hdir hp cpre lpre hC2
          cases l3
          exact ⟨es3, none, its_glue_fail l1, l2, .inl ⟨rfl, rfl⟩⟩
        · obtain ⟨es3, r3, l1, l2, l3⟩ := its_new hdir hp cpre lpre hC2
          cases l3 with
          | @ok _ D2' q1 q2 q3 =>
            have hx2 : x ∉ D2' := fun h => hx0 (q3 (List.mem_cons_self ..) h)
            have hC3 : Ctxt k x (k :: S) (x :: k :: S') D2 D2' :=
              ⟨hC1.begun.extra, q1, fun _ => List.mem_cons_self .., q2⟩
            have xS : x ∉ k :: S' := by
              intro h
              rcases List.mem_cons.mp h with e | h
              · exact xn e
              · exact hxS h
            have lmid : ∀ q, q < mid.length → oldPlace k x pre.length mid.length ⟨x, 0 + q, none⟩ = ⟨k, 0 + pre.length + q, none⟩ := by
              intro q hq
              unfold oldPlace
              rw [if_pos rfl]
              dsimp only
              congr 1
              omega
            have hmne : mid ≠ [] := by
              obtain ⟨it, h1, -⟩ := hmid
              exact List.ne_nil_of_mem h1
            have taskX : ∀ {es r}, Its c (fun q => Spec.Plan c (moveItems tasks k T x pre mid post) g true (x :: k :: S') (.task q)) x
                (ownTask T x mid) m tenv 0 mid false D2' es r →
                Spec.Plan c (moveItems tasks k T x pre mid post) g true (k :: S') (.task x) D2' es (r.map (x :: ·)) := by
              intro es r h
              have := Spec.Plan.runs (T := ownTask T x mid) hx2 xS new_x (by simp [CondTrue, ownTask, evaluate]) .noDeps hmne h7 h8 (its_plan h)
              simpa using this
            rcases its_split hq with ⟨rfl, hm⟩ | ⟨es4, D3, es5, rfl, hm, hs⟩
            · obtain ⟨es6, r6, m1, m2, m3⟩ := its_new hdirX (its_any hmid (any' := false) hm) cmid lmid hC3
              cases m3
              refine ⟨es3 ++ es6, none, its_glue l1 (.callFails callX condX (taskX m1)), ?_, .inl ⟨rfl, rfl⟩⟩
              rw [List.map_append, l2, m2]
            · obtain ⟨es6, r6, m1, m2, m3⟩ := its_new hdirX (its_any hmid (any' := false) hm) cmid lmid hC3
              cases m3 with
              | @ok _ D3' p1 p2 p3 =>
                have hC4 : Ctxt k x (k :: S) (k :: S') D3 (x :: D3') :=
                  ⟨hC1.begun, p1.extra, hC1.within, fun _ => .inr (List.mem_cons_self ..)⟩
                have lpost : ∀ q, q < post.length → oldPlace k x pre.length mid.length ⟨k, 0 + pre.length + 1 + q, none⟩ =
                    ⟨k, 0 + pre.length + mid.length + q, none⟩ := by
                  intro q hq
                  unfold oldPlace
                  rw [if_neg hk, if_pos ⟨rfl, by dsimp only; omega⟩]
                  dsimp only
                  congr 1
                  omega
                have hany : ((false || pre.any (·.onPlatform c.platform)) || mid.any (·.onPlatform c.platform)) = true := by
                  obtain ⟨it, h1, h2⟩ := hmid
                  rw [List.any_eq_true.mpr ⟨it, h1, h2⟩, Bool.or_true]
                rw [hany] at hs
                obtain ⟨es7, r7, n1, n2, n3⟩ := its_new hdir hs cpost lpost hC4
                refine ⟨es3 ++ (es6 ++ es7), r7, its_glue l1 (.call callX condX (taskX m1) n1), ?_, ?_⟩
                · rw [List.map_append, List.map_append, l2, m2, n2]
                · cases n3 with
                  | fail => exact .inl ⟨rfl, rfl⟩
                  | ok w1 => exact .inr ⟨_, _, rfl, rfl, w1⟩
      · have lo : ∀ q, q < U.run.length → oldPlace n x pre.length mid.length ⟨k, 0 + q, none⟩ = ⟨k, 0 + q, none⟩ := by
          intro q _
          unfold oldPlace
          rw [if_neg hk, if_neg (fun h => e h.1)]
        have ih2 : Its c (Sim c (new) g n x old (k :: S)) k U m tenv 0 U.run false D1 es' r := ih2
        obtain ⟨e2, r2, l1, l2, l3⟩ := its_new (fun _ _ => rfl) ih2 (hcall h3) lo hC2
        exact ⟨e1 ++ e2, _, .runs h1' h2' ((new_other e hk).trans h3) h4 k1 h6 h7 h8 (its_plan l1), by rw [List.map_append, k2, l2],
          (l3.trans j3).finish hk⟩
  | noDeps => exact fun _ S' D' hC => ⟨[], _, .noDeps, rfl, .ok hC.done hC.after fun _ h => h⟩
  | dep _ _ ih1 ih2 =>
    intro hds S' D' hC
    obtain ⟨e1, r1, k1, k2, k3⟩ := ih1 (fun e => hds (e ▸ List.mem_cons_self ..)) S' D' hC
    cases k3 with
    | @ok _ D1' j1 j2 j3 =>
      obtain ⟨e2, r2, l1, l2, l3⟩ := ih2 (fun e => hds (List.mem_cons_of_mem _ e)) S' D1' ⟨hC.begun, j1, hC.within, j2⟩
      exact ⟨e1 ++ e2, r2, .dep k1 l1, by rw [List.map_append, k2, l2], l3.trans j3⟩
  | depFails _ ih =>
    intro hds S' D' hC
    obtain ⟨e1, r1, k1, k2, k3⟩ := ih (fun e => hds (e ▸ List.mem_cons_self ..)) S' D' hC
    cases k3
    exact ⟨e1, none, .depFails k1, k2, .fail⟩
  | «end» => exact .end
  | nothing => exact .nothing
  | elsewhere h1 _ ih => exact .elsewhere h1 ih
  | wrongItem h1 h2 => exact .wrongItem h1 h2
  | skippedItem h1 h2 _ ih => exact .skippedItem h1 h2 ih
  | cmd h1 h2 h3 _ ih => exact .cmd h1 h2 h3 ih
  | badCmd h1 h2 h3 => exact .badCmd h1 h2 h3
  | log h1 h2 h3 _ ih => exact .log h1 h2 h3 ih
  | badLog h1 h2 h3 => exact .badLog h1 h2 h3
  | call _ h1 h2 _ _ ih1 ih2 => exact .call h1 h2 ih1 ih2
  | callFails _ h1 h2 _ ih => exact .callFails h1 h2 ih
  | name h => cases h

end
end Split
end Bab
