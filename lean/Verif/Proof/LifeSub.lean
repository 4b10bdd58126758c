import Verif.Proof.LifeTask
import Verif.Proof.Safe
/-
Parallel blocks follow the life cycle `Spec.BlockStep`.
-/

namespace Bab
open Spec Own

/-- the events inside the parallel block that is item `i` of task `n` -/
def mineSub (n : Str) (i : Nat) (e : Ev) : Bool :=
  match key e with
  | some (m, some (i', _)) => decide (m = n ∧ i' = i)
  | _ => false

/-- the life cycle of that block -/
def subδ (c : Cfg) (tasks : TaskMap) (n : Str) (i : Nat) (S : Nat → SubLife) (e : Ev) (S' : Nat → SubLife) : Prop :=
  ∃ items lim, blockAt tasks n i = some (items, lim) ∧ BlockStep c n i items lim S e S'

theorem mineSub_of_key {n : Str} {i : Nat} {e : Ev} {m : Str} {k : Option (Nat × Nat)}
    (h : Spec.key e = some (m, k)) (hk : ∀ p, k = some p → m = n → p.1 ≠ i) : mineSub n i e = false := by
  unfold mineSub
  rw [h]
  cases k with
  | none => rfl
  | some p =>
    have := hk p rfl
    simp only [decide_eq_false_iff_not, not_and]
    exact this

theorem mineSub_of_none {n : Str} {i : Nat} {e : Ev} (h : Spec.key e = none) : mineSub n i e = false := by
  unfold mineSub; rw [h]

/-- replace one component -/
def setAt (S : Nat → SubLife) (j : Nat) (q : SubLife) : Nat → SubLife := fun k => if k = j then q else S k

/-- the steps of an item inside its goroutine -/
def ChildStep (c : Cfg) (n : Str) (i j : Nat) (item : RunItem) (q : SubLife) (e : Ev) (q' : SubLife) : Prop :=
  SubStep c n i j item q e q' ∧ e ≠ .subAbort n i j

/-- the events of one item, as events of the block -/
theorem lift_run {c : Cfg} {n : Str} {i j : Nat} {items : List RunItem} {lim : Nat} {item : RunItem}
    (hj : items[j]? = some item) {q q' : SubLife} {es : List Ev}
    (h : Run (mineSub n i) (ChildStep c n i j item) q es q') {S : Nat → SubLife} (hS : S j = q)
    (hlim : lim ≠ 0 → (List.range items.length).countP (fun k => k ≠ j && (S k).isActive) < lim) :
    Run (mineSub n i) (BlockStep c n i items lim) S es (setAt S j q') := by
  induction es generalizing q S with
  | nil =>
    have h : q = q' := h
    subst h
    show S = _
    funext k
    unfold setAt
    split
    · rename_i hk; rw [hk, hS]
    · rfl
  | cons e es ih =>
    rcases h with ⟨hm, q1, hd, hr⟩ | ⟨hm, hr⟩
    · refine Or.inl ⟨hm, setAt S j q1, ?_, ?_⟩
      · refine .mk e j item hj ?_ ?_ ?_ (fun he => absurd he hd.2)
        · rw [hS]; simpa [setAt] using hd.1
        · intro k hk; simp [setAt, hk]
        · intro he hl
          subst he
          have hidle : q = .idle := by
            cases hd.1 with
            | start => rfl
            | inner e h => cases h
          have hc := hlim hl
          have : (List.range items.length).countP (fun k => (S k).isActive) =
              (List.range items.length).countP (fun k => k ≠ j && (S k).isActive) := by
            refine List.countP_congr (fun k _ => ?_)
            by_cases hk : k = j
            · subst hk; simp [hS, hidle, SubLife.isActive]
            · simp [hk]
          omega
      · have h1 := ih hr (S := setAt S j q1) (by simp [setAt]) ?_
        · have h2 : setAt (setAt S j q1) j q' = setAt S j q' := by
            funext k; unfold setAt; split <;> rfl
          rw [h2] at h1
          exact h1
        · intro hl
          have hc := hlim hl
          have : (List.range items.length).countP (fun k => k ≠ j && (setAt S j q1 k).isActive) =
              (List.range items.length).countP (fun k => k ≠ j && (S k).isActive) := by
            refine List.countP_congr (fun k _ => ?_)
            by_cases hk : k = j
            · simp [hk]
            · simp [setAt, hk]
          omega
    · exact Or.inr ⟨hm, ih hr hS hlim⟩

/-- how the state of item `j` fits the position of its goroutine -/
def SubTag (c : Cfg) (n : Str) (i j : Nat) (item : RunItem) (p : Prog) (q : SubLife) : Tag → Prop
  | .init => q = .idle ∧ Owner n (mineSub n i) (ChildStep c n i j item) (fun q _ => ∃ r, q = .ended r) .idle p
  | .running => Owner n (mineSub n i) (ChildStep c n i j item) (fun q _ => ∃ r, q = .ended r) q p
  | .returned => ∃ r, q = .ended r
  | .released => ∃ r, q = .ended r
  | .done => q = .dropped ∨ ∃ r, q = .ended r

/-- the invariant of a block -/
structure BlkI (c : Cfg) (n : Str) (i : Nat) (items : List RunItem) (lim : Nat) (st : BState items.length)
    (ps : Fin items.length → Prog) (S : Nat → SubLife) : Prop where
  ok : Safe.BlockOk lim st
  tag : ∀ j : Fin items.length, SubTag c n i j (items.get j) (ps j) (S j) (st.tag j)

theorem active_tag {c : Cfg} {n : Str} {i j : Nat} {item : RunItem} {p : Prog} {q : SubLife} {t : Tag}
    (h : SubTag c n i j item p q t) (ha : q.isActive = true) : t = .running := by
  cases t with
  | init => rw [h.1] at ha; cases ha
  | running => rfl
  | returned => obtain ⟨r, rfl⟩ := h; cases ha
  | released => obtain ⟨r, rfl⟩ := h; cases ha
  | done => rcases h with rfl | ⟨r, rfl⟩ <;> cases ha

theorem range_eq_map_finRange (n : Nat) : List.range n = (List.finRange n).map Fin.val := by
  apply List.ext_getElem <;> simp

/-- the other active items leave room in the semaphore -/
theorem active_lt {c : Cfg} {n : Str} {i : Nat} {items : List RunItem} {lim : Nat} {st : BState items.length}
    {ps : Fin items.length → Prog} {S : Nat → SubLife} (h : BlkI c n i items lim st ps S)
    {j : Fin items.length} (hj : st.tag j = .running) (hl : lim ≠ 0) :
    (List.range items.length).countP (fun k => k ≠ (j : Nat) && (S k).isActive) < lim := by
  have h1 := h.ok.held hl
  have h2 := h.ok.limit hl
  have h3 := Safe.cnt_upd Safe.Tag.holds st.tag j .init
  simp only [hj, Safe.Tag.holds, if_true, Bool.false_eq_true, if_false, Nat.add_zero] at h3
  have h4 : (List.range items.length).countP (fun k => k ≠ (j : Nat) && (S k).isActive) ≤
      Safe.cnt Safe.Tag.holds (upd st.tag j .init) := by
    rw [range_eq_map_finRange, List.countP_map]
    refine List.countP_mono_left (fun k _ hk => ?_)
    simp only [Function.comp, Bool.and_eq_true, decide_eq_true_eq, ne_eq, ] at hk
    have hkj : k ≠ j := fun h => by
      subst h; simp at hk
    have := active_tag (h.tag k) hk.2
    simp [upd, hkj, this, Safe.Tag.holds]
  omega

theorem blkI_inv {c : Cfg} {n : Str} {i : Nat} {items : List RunItem} {lim : Nat} {ctx : CtxPath} :
    BlockInv n (mineSub n i) (BlockStep c n i items lim) lim ctx n i items.length (BlkI c n i items lim) := by
  intro st ps S σ st' ps' σ' hI hs hstep
  have hget : ∀ j : Fin items.length, items[(j : Nat)]? = some (items.get j) := fun j => by simp
  cases hstep with
  | acquire j h1 h2 =>
    refine ⟨hs, [], S, by simp, rfl, ?_, ?_⟩
    · have hw := Safe.cnt_upd (fun t => t ≠ .done) st.tag j .running
      have hh := Safe.cnt_upd Safe.Tag.holds st.tag j .running
      simp only [h1, Safe.Tag.holds] at hw hh
      refine ⟨?_, ?_, ?_⟩
      · rw [hI.ok.wg]; simpa using hw.symm
      · intro hl
        have := hI.ok.held hl
        simp only [hl, if_false]
        simp at hh; omega
      · intro hl
        have := hI.ok.limit hl
        simp only [hl, if_false, false_or] at h2 ⊢
        omega
    · intro k
      by_cases hk : k = j
      · subst hk
        have := hI.tag k
        rw [h1] at this
        simp only [upd, if_true]
        rw [this.1]; exact this.2
      · have := hI.tag k
        simpa [upd, hk] using this
  | abort j h1 h2 h3 =>
    have htj := hI.tag j
    rw [h1] at htj
    refine ⟨hs, _, setAt S j .dropped, rfl, run_one ?_ ?_, ?_, ?_⟩
    · simp [mineSub, Spec.key]
    · refine .mk _ j _ (hget j) ?_ ?_ ?_ (fun _ => h2)
      · rw [htj.1]; simpa [setAt] using SubStep.drop
      · intro k hk; simp [setAt, hk]
      · intro h; cases h
    · have hw := Safe.cnt_upd (fun t => t ≠ .done) st.tag j .done
      have hh := Safe.cnt_upd Safe.Tag.holds st.tag j .done
      simp only [h1, Safe.Tag.holds] at hw hh
      refine ⟨?_, ?_, ?_⟩
      · simp only [hI.ok.wg]
        simp at hw ⊢
        omega
      · intro hl
        have := hI.ok.held hl
        simp at hh; simp only; omega
      · intro hl; exact hI.ok.limit hl
    · intro k
      by_cases hk : k = j
      · subst hk; simp [upd, setAt, SubTag]
      · have hkv : (k : Nat) ≠ j := fun h => hk (Fin.ext h)
        have := hI.tag k
        simpa [upd, hk, setAt, hkv] using this
  | child j h1 h2 =>
    have htj := hI.tag j
    rw [h1] at htj
    obtain ⟨k1, es, q', k2, k3, k4⟩ := owner_step h2 htj hs
    refine ⟨k1, es, setAt S j q', k2, lift_run (hget j) k3 rfl (fun hl => active_lt hI h1 hl), hI.ok, ?_⟩
    intro k
    by_cases hk : k = j
    · subst hk
      rw [h1]
      simpa [upd, setAt, SubTag] using k4
    · have hkv : (k : Nat) ≠ j := fun h => hk (Fin.ext h)
      have := hI.tag k
      simpa [upd, hk, setAt, hkv] using this
  | @finish _ _ _ _ _ _ _ _ _ r j h1 h2 =>
    have htj := hI.tag j
    rw [h1, h2] at htj
    refine ⟨hs, [], S, by simp, rfl, ?_, ?_⟩
    · have hw := Safe.cnt_upd (fun t => t ≠ .done) st.tag j .returned
      have hh := Safe.cnt_upd Safe.Tag.holds st.tag j .returned
      simp only [h1, Safe.Tag.holds] at hw hh
      refine ⟨?_, ?_, ?_⟩
      · rw [hI.ok.wg]; simpa using hw.symm
      · intro hl
        have := hI.ok.held hl
        simp at hh; simp only; omega
      · intro hl; exact hI.ok.limit hl
    · intro k
      by_cases hk : k = j
      · subst hk
        have htj : ∃ r, S k = .ended r := htj
        simpa [upd, SubTag] using htj
      · have := hI.tag k
        simpa [upd, hk] using this
  | release j h1 =>
    have htj := hI.tag j
    rw [h1] at htj
    refine ⟨hs, [], S, by simp, rfl, ?_, ?_⟩
    · have hw := Safe.cnt_upd (fun t => t ≠ .done) st.tag j .released
      have hh := Safe.cnt_upd Safe.Tag.holds st.tag j .released
      simp only [h1, Safe.Tag.holds] at hw hh
      refine ⟨?_, ?_, ?_⟩
      · rw [hI.ok.wg]; simpa using hw.symm
      · intro hl
        have := hI.ok.held hl
        simp only [hl, if_false]
        simp at hh; omega
      · intro hl
        have := hI.ok.limit hl
        simp only [hl, if_false]
        omega
    · intro k
      by_cases hk : k = j
      · subst hk
        simpa [upd, SubTag] using htj
      · have := hI.tag k
        simpa [upd, hk] using this
  | wgDone j h1 =>
    have htj := hI.tag j
    rw [h1] at htj
    refine ⟨hs, [], S, by simp, rfl, ?_, ?_⟩
    · have hw := Safe.cnt_upd (fun t => t ≠ .done) st.tag j .done
      have hh := Safe.cnt_upd Safe.Tag.holds st.tag j .done
      simp only [h1, Safe.Tag.holds] at hw hh
      refine ⟨?_, ?_, ?_⟩
      · simp only [hI.ok.wg]
        simp at hw ⊢
        omega
      · intro hl
        have := hI.ok.held hl
        simp at hh; simp only; omega
      · intro hl; exact hI.ok.limit hl
    · intro k
      by_cases hk : k = j
      · subst hk
        simp only [upd, if_true]
        exact Or.inr htj
      · have := hI.tag k
        simpa [upd, hk] using this

theorem run_mono {Q : Type} {mine : Ev → Bool} {δ δ' : Q → Ev → Q → Prop} (h : ∀ q e q', δ q e q' → δ' q e q')
    {q q' : Q} {es : List Ev} (hr : Run mine δ q es q') : Run mine δ' q es q' := by
  induction es generalizing q with
  | nil => exact hr
  | cons e es ih =>
    rcases hr with ⟨hm, q1, hd, hr⟩ | ⟨hm, hr⟩
    · exact Or.inl ⟨hm, q1, h _ _ _ hd, ih hr⟩
    · exact Or.inr ⟨hm, ih hr⟩

section
variable {c : Cfg} {tasks : TaskMap} {n : Str} {i : Nat}

local notation "Own2" => Owner n (mineSub n i) (subδ c tasks n i) (fun _ _ => True)
local notation "Q2" => Quiet n (mineSub n i)
local notation "idles" => (fun _ => SubLife.idle : Nat → SubLife)

theorem mineSub_task {i' : Nat} : ∀ e, Spec.key e = some (Loc.key ⟨n, i', none⟩) → mineSub n i e = false :=
  fun _ he => mineSub_of_key he (by simp)

theorem own2_runBlock {T T' : Task} {rec : Rec} (hr : ∀ fr b m, Q2 (rec fr b m))
    {fr : Nat → Frame} {lim : Nat} {ctx : CtxPath} {items : List RunItem} {labels : List Str}
    {m tenv : GoMap Str} (hT : tasks.get? n = some T)
    {a b d e g h h2 h3} (hi : T.run[i]? = some (.parallel items a b lim d e g h h2 h3)) :
    Own2 idles (runBlock lim ctx n i items labels fun j item =>
        executeRunItem c rec T' (fr j) ⟨n, i, some j⟩ item (.own m) tenv) := by
  have hblock : blockAt tasks n i = some (items, lim) := by simp [blockAt, hT, hi]
  refine Or.inr ⟨BlkI c n i items lim, ⟨Safe.blockOk_init _ _, fun j => ⟨rfl, ?_⟩⟩, ?_, ?_⟩
  · refine owner_note (by simp [mineSub, Spec.key]) ⟨.start, by simp⟩ ?_
    refine owner_bind (owner_executeRunItem (c := c) (emb := SubLife.active) (own := none) ?_ ?_ hr ?_) ?_
    · intro e he; simp [mineSub, he, Loc.key]
    · intro ph e ph' h; exact ⟨.inner _ h, by cases h <;> simp⟩
    · intro o ho; cases ho
    · rintro q r ⟨ph, rfl, ⟨rfl, h⟩ | ⟨e, rfl, h⟩⟩
      · exact owner_note (by simp [mineSub, Spec.key]) ⟨.ok h, by simp⟩ ⟨_, rfl⟩
      · exact owner_note (by simp [mineSub, Spec.key]) ⟨.bad e h, by simp⟩ ⟨_, rfl⟩
  · intro st ps q σ st' ps' σ' h1 h2 h3
    obtain ⟨k0, es, q', k1, k2, k3⟩ := blkI_inv st ps q σ st' ps' σ' h1 h2 h3
    exact ⟨k0, es, q', k1, run_mono (fun q e q' h => ⟨items, lim, hblock, h⟩) k2, k3⟩
  · intro q r
    exact owner_note_quiet (by simp [mineSub, Spec.key]) trivial

theorem own2_executeParallel {T : Task} {rec : Rec} (hr : ∀ fr b m, Q2 (rec fr b m)) {fr : Frame}
    {items : List RunItem} {labels : List Str} {mode : ParallelMode} {lim : Nat}
    {color silent output : Option Bool} {m tenv : GoMap Str} (hT : tasks.get? n = some T)
    {a b d e g h h2 h3} (hi : T.run[i]? = some (.parallel items a b lim d e g h h2 h3)) :
    Own2 idles (executeParallel c tasks rec n T fr i items labels mode lim color silent output m tenv) := by
  unfold Bab.executeParallel
  dsimp only
  refine owner_preResolveDeps hr (fun _ _ => trivial) ?_
  have hnote : ∀ p, Own2 idles p → Own2 idles (.note (.parBegin n i m) p) :=
    fun p hp => owner_note_quiet (by simp [mineSub, Spec.key]) hp
  split
  · exact owner_note_quiet (by simp [mineSub, Spec.key]) trivial
  · split
    · unfold executeParallelTUI
      dsimp only
      split
      · exact hnote _ (own2_runBlock hr hT hi)
      · refine owner_silent (fun _ => rfl) (fun id => ?_)
        intro ok _
        refine ⟨_, run_quiet (by intro e he; simp [Act.evs] at he; subst he; simp [mineSub, Spec.key]), ?_⟩
        cases ok with
        | true => exact hnote _ (own2_runBlock hr hT hi)
        | false => trivial
    · unfold executeParallelInterleaved
      exact hnote _ (own2_runBlock hr hT hi)

theorem own2_quiet {p : Prog} (h : Q2 p) (q : Nat → SubLife) : Own2 q p :=
  owner_of_quiet h (fun _ _ => trivial) q

theorem own2_executePrompt {tn : Str} {i' : Nat} {p : PromptRun} {vars : VarEnv} {k : Option Err → VarEnv → Prog}
    {q : Nat → SubLife} (hk : ∀ r v, Own2 q (k r v)) : Own2 q (executePrompt c tn ⟨n, i', none⟩ p vars k) := by
  have hl := mineSub_task (n := n) (i := i) (i' := i')
  have hrd : ∀ (kk : GoMap Str → Prog), (∀ m, Own2 q (kk m)) → Own2 q (readVars vars kk) := by
    intro kk hkk
    cases vars with
    | own m => exact hkk m
    | global => exact owner_silent (fun _ => rfl) hkk
  unfold Bab.executePrompt
  refine hrd _ (fun m => owner_note_quiet (hl _ rfl) ?_)
  split
  · exact hk _ _
  · split
    · exact owner_note_quiet (hl _ rfl) (hk _ _)
    · dsimp only
      have hgot : ∀ r : Except Err Str, Own2 q (match r with
          | .error e => k (some (.wrap (.prompt tn p.prompt) e)) vars
          | .ok ans => Bab.writeVar vars p.prompt ans (k none)) := by
        intro r
        cases r with
        | error e => exact hk _ _
        | ok ans =>
          cases vars with
          | own m => exact hk _ _
          | global => exact owner_silent (fun _ => rfl) (fun _ => hk _ _)
      split
      · intro r _
        exact ⟨q, run_quiet (by intro e he; simp [Act.evs] at he; subst he; exact hl _ rfl), hgot r⟩
      · exact owner_note_quiet (hl _ rfl) (hgot _)

theorem own2_executeItem {T : Task} {rec : Rec} (hr : ∀ fr b m, Q2 (rec fr b m)) {fr : Frame}
    {i' : Nat} {item : RunItem} {vars : VarEnv} {tenv : GoMap Str} {k : Option Err → VarEnv → Prog}
    (hT : tasks.get? n = some T) (hi : T.run[i']? = some item)
    (hk : ∀ r v, i' ≠ i → Own2 idles (k r v)) (hk' : ∀ r v, i' = i → Q2 (k r v)) :
    Own2 idles (executeItem c tasks rec n T fr i' item vars tenv k) := by
  have hl := mineSub_task (n := n) (i := i) (i' := i')
  have hX := closed_quiet n (mineSub n i)
  have hka : ∀ r v, Own2 idles (k r v) := by
    intro r v
    by_cases h : i' = i
    · exact own2_quiet (hk' r v h) _
    · exact hk r v h
  have hrd : ∀ (kk : GoMap Str → Prog), (∀ m, Own2 idles (kk m)) → Own2 idles (readVars vars kk) := by
    intro kk hkk
    cases vars with
    | own m => exact hkk m
    | global => exact owner_silent (fun _ => rfl) hkk
  unfold Bab.executeItem
  split
  · exact own2_executePrompt hka
  · split
    · exact owner_note_quiet (hl _ rfl) (hka _ _)
    · refine hrd _ (fun m => ?_)
      by_cases h : i' = i
      · subst h
        exact owner_bind (own2_executeParallel hr hT hi) (fun q r _ => own2_quiet (hk' _ _ rfl) _)
      · refine owner_quiet_bind (hX.executeParallel ?_ hr ?_) (fun r => hka _ _)
        · intro e he; simp [mineSub, he]
        · intro e kk he hp
          cases kk with
          | none => simp [mineSub, he]
          | some p =>
            have hp := hp p rfl
            simp only [mineSub, he, decide_eq_false_iff_not, true_and]
            rintro rfl
            exact h hp.symm
  · exact owner_quiet_bind (hX.executeRunItem hr hl) (fun r => hka _ _)

theorem own2_executeItems {T : Task} {rec : Rec} (hr : ∀ fr b m, Q2 (rec fr b m)) {fr : Frame}
    {tenv : GoMap Str} (hT : tasks.get? n = some T) (items : List RunItem) (i' : Nat) (vars : VarEnv)
    (ex sk : Nat) (hi : T.run.drop i' = items) (hle : i' ≤ i) :
    Own2 idles (executeItems c tasks rec n T fr tenv items i' vars ex sk) := by
  have hX := closed_quiet n (mineSub n i)
  have hrd : ∀ (vars : VarEnv) (kk : GoMap Str → Prog), (∀ m, Own2 idles (kk m)) → Own2 idles (readVars vars kk) := by
    intro vars kk hkk
    cases vars with
    | own m => exact hkk m
    | global => exact owner_silent (fun _ => rfl) hkk
  induction items generalizing i' vars ex sk with
  | nil => unfold Bab.executeItems; split <;> trivial
  | cons item rest ih =>
    have hlt : i' < T.run.length := by
      rcases Nat.lt_or_ge i' T.run.length with h | h
      · exact h
      · rw [List.drop_eq_nil_of_le h] at hi; cases hi
    have hget : T.run[i']? = some item := by
      have := List.drop_eq_getElem_cons hlt
      rw [hi] at this
      simp only [List.cons.injEq] at this
      rw [List.getElem?_eq_getElem hlt, this.1]
    have hrest : T.run.drop (i' + 1) = rest := by
      have := List.drop_eq_getElem_cons hlt
      rw [hi] at this
      simp only [List.cons.injEq] at this
      exact this.2.symm
    have hqrest : i' = i → ∀ vars ex sk,
        Q2 (Bab.executeItems c tasks rec n T fr tenv rest (i' + 1) vars ex sk) := by
      intro h vars ex sk
      refine hX.executeItems ?_ hr ?_
      · intro e he; simp [mineSub, he]
      · intro e kk he hp
        cases kk with
        | none => simp [mineSub, he]
        | some p =>
          have hp := hp p rfl
          simp only [mineSub, he, decide_eq_false_iff_not, true_and]
          omega
    have hany : ∀ vars ex sk, Own2 idles (Bab.executeItems c tasks rec n T fr tenv rest (i' + 1) vars ex sk) := by
      intro vars ex sk
      by_cases h : i' = i
      · exact own2_quiet (hqrest h _ _ _) _
      · exact ih (i' + 1) vars ex sk hrest (by omega)
    unfold Bab.executeItems
    refine owner_silent (fun _ => rfl) (fun b => ?_)
    cases b with
    | true => trivial
    | false =>
      rw [if_neg (by simp)]
      split
      · exact owner_note_quiet (by simp [mineSub, Spec.key]) (hany _ _ _)
      · dsimp only
        have hgo : ∀ w, Own2 idles (.note (.itemStart n i' w) <|
            Bab.executeItem c tasks rec n T fr i' item vars tenv fun r vars' =>
            .note (.itemEnd n i' r) <|
            match r with
            | some e => .ret (some e)
            | none => Bab.executeItems c tasks rec n T fr tenv rest (i' + 1) vars' (ex + 1) sk) := by
          intro w
          refine owner_note_quiet (by simp [mineSub, Spec.key]) (own2_executeItem hr hT hget ?_ ?_)
          · intro r v _
            refine owner_note_quiet (by simp [mineSub, Spec.key]) ?_
            cases r with
            | none => exact hany _ _ _
            | some e => trivial
          · intro r v h
            refine hX.note (by simp [mineSub, Spec.key]) ?_
            cases r with
            | none => exact hqrest h _ _ _
            | some e => trivial
        split
        · exact hgo _
        · refine hrd _ _ (fun m => ?_)
          split
          · trivial
          · exact owner_note_quiet (by simp [mineSub, Spec.key]) (hany _ _ _)
          · exact hgo _

theorem own2_executeTask {T : Task} {rec : Rec} (hr : ∀ fr b m, Q2 (rec fr b m)) {fr : Frame}
    (hT : tasks.get? n = some T) : Own2 idles (executeTask c tasks rec n T fr) := by
  unfold Bab.executeTask
  refine owner_silent (fun _ => rfl) (fun g => ?_)
  split
  · trivial
  · refine owner_note_quiet (by simp [mineSub, Spec.key]) ?_
    split
    · trivial
    · exact own2_executeItems hr hT _ _ _ _ _ rfl (Nat.zero_le _)

theorem own2_runDeps {rec : Rec} (hr : ∀ fr b m, Q2 (rec fr b m)) {fr : Frame} {k : Prog}
    (hk : Own2 idles k) (ds : List Str) (m : Nat) : Own2 idles (runDeps rec n fr k ds m) := by
  induction ds generalizing m with
  | nil => exact hk
  | cons d ds ih =>
    unfold Bab.runDeps
    refine owner_quiet_bind (hr _ _ _) (fun r => ?_)
    cases r with
    | none => exact owner_note_quiet (by simp [mineSub, Spec.key]) (ih _)
    | some e => exact owner_note_quiet (by simp [mineSub, Spec.key]) trivial

theorem own2_runTaskBody {rec : Rec} (hr : ∀ fr b m, Q2 (rec fr b m)) {fr : Frame} {b : Bool} :
    Own2 idles (runTaskBody c tasks rec fr b n) := by
  unfold Bab.runTaskBody
  split
  · trivial
  · rename_i T hT
    dsimp only
    have hfinq : Q2 (.act (.setDone n) fun _ => .ret none) := by
      intro x _
      exact ⟨by intro e he; simp [Act.evs] at he; subst he; simp [mineSub, Spec.key], trivial⟩
    have hdeps : Own2 idles (Bab.runDeps rec n fr
        (if T.run = [] then .act (.setDone n) fun _ => .ret none
         else (Bab.executeTask c tasks rec n T fr).bind fun
          | some e => .ret (some e)
          | none => .act (.setDone n) fun _ => .ret none)
        T.deps 0) := by
      refine own2_runDeps hr ?_ _ _
      split
      · exact own2_quiet hfinq _
      · refine owner_bind (own2_executeTask hr hT) (fun q r _ => ?_)
        cases r with
        | none => exact own2_quiet hfinq _
        | some e => trivial
    have hgo : Own2 idles (if (!c.dry && !isSilent [fr.ovSilent, T.silent, c.globalSilent]) = true then
        .note (.echoTask n b fr.out) (Bab.runDeps rec n fr
        (if T.run = [] then .act (.setDone n) fun _ => .ret none
         else (Bab.executeTask c tasks rec n T fr).bind fun
          | some e => .ret (some e)
          | none => .act (.setDone n) fun _ => .ret none)
        T.deps 0) else Bab.runDeps rec n fr
        (if T.run = [] then .act (.setDone n) fun _ => .ret none
         else (Bab.executeTask c tasks rec n T fr).bind fun
          | some e => .ret (some e)
          | none => .act (.setDone n) fun _ => .ret none)
        T.deps 0) := by
      split
      · exact owner_note_quiet (by simp [mineSub, Spec.key]) hdeps
      · exact hdeps
    split
    · exact hgo
    · refine owner_silent (fun _ => rfl) (fun g => ?_)
      split
      · trivial
      · exact owner_note_quiet (by simp [mineSub, Spec.key]) (own2_quiet hfinq _)
      · exact owner_note_quiet (by simp [mineSub, Spec.key]) hgo

end

/-- In every reachable state the events inside a parallel block are a run of its life cycle. -/
theorem block_of_reach (c : Cfg) (tasks : TaskMap) (gvars : GoMap Str) (main n : Str) (i : Nat)
    {s : State} (h : Reach (start c tasks gvars main) s) :
    ∃ S, Run (mineSub n i) (subδ c tasks n i) (fun _ => .idle) s.sh.trace S := by
  have hu : Unclaimed n (mineSub n i) (subδ c tasks n i) (fun _ => .idle) (runWithTasks c tasks main) :=
    unclaimed_runTask (by intro e he; simp [mineSub, he])
      (by intro e m k he hm
          refine mineSub_of_key he (fun p _ h => absurd h hm))
      (fun rec hr fr b => owner_bind (own2_runTaskBody hr)
        (fun q r _ => owner_note_quiet (by simp [mineSub, Spec.key]) trivial)) _ _ _ _
  rcases reach_run hu rfl rfl (fun id => by simp [mineSub, Spec.key]) h with ⟨_, h2, _⟩ | ⟨_, q, h2, _⟩
  · exact ⟨_, run_quiet h2⟩
  · exact ⟨q, h2⟩

end Bab
