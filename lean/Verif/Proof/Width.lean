import Verif.Spec.Width
import Verif.Model.Runner
/-
The number of processes that a program has started and waits for, and a bound for it.
-/

namespace Bab
open Spec.Width

namespace Width

/-! ### sums over the items of a block -/

def total {n : Nat} (f : Fin n → Nat) : Nat := ((List.finRange n).map f).sum

theorem sum_upd {n : Nat} (f : Fin n → Nat) (i : Fin n) (x : Nat) (l : List (Fin n)) (hn : l.Nodup) :
    (i ∉ l → (l.map (upd f i x)).sum = (l.map f).sum) ∧ (i ∈ l → (l.map (upd f i x)).sum + f i = (l.map f).sum + x) := by
  induction l with
  | nil => exact ⟨fun _ => rfl, fun h => by cases h⟩
  | cons j l ih =>
    obtain ⟨h1, h2⟩ := List.nodup_cons.mp hn
    obtain ⟨ih1, ih2⟩ := ih h2
    simp only [List.map_cons, List.sum_cons, List.mem_cons, not_or]
    constructor
    · rintro ⟨hj, hl⟩
      rw [ih1 hl, upd, if_neg (fun e => hj e.symm)]
    · rintro (rfl | hl)
      · rw [ih1 h1, upd, if_pos rfl]; omega
      · have : j ≠ i := fun e => h1 (e ▸ hl)
        have := ih2 hl
        rw [show upd f i x j = f j from if_neg ‹_›]; omega

theorem total_upd {n : Nat} (f : Fin n → Nat) (i : Fin n) (x : Nat) : total (upd f i x) + f i = total f + x :=
  (sum_upd f i x _ (List.nodup_finRange n)).2 (List.mem_finRange i)

theorem upd_self {α : Type} {n : Nat} (f : Fin n → α) (i : Fin n) (x : α) : upd f i x i = x := if_pos rfl

theorem upd_other {α : Type} {n : Nat} (f : Fin n → α) {i j : Fin n} (x : α) (h : j ≠ i) : upd f i x j = f j := if_neg h

theorem total_zero {n : Nat} {f : Fin n → Nat} (h : ∀ i, f i = 0) : total f = 0 := by
  unfold total
  rw [show f = fun _ => 0 from funext h]
  generalize List.finRange n = l
  induction l with
  | nil => rfl
  | cons a l ih => simpa using ih

/-- 1 for an item that holds a slot of the semaphore -/
def slot : Tag → Nat
  | .running => 1
  | .returned => 1
  | _ => 0

/-- 1 for an item that is not over -/
def open_ : Tag → Nat
  | .done => 0
  | _ => 1

theorem map_upd {n : Nat} (g : Tag → Nat) (tag : Fin n → Tag) (i : Fin n) (t : Tag) :
    total (fun j => g (upd tag i t j)) + g (tag i) = total (fun j => g (tag j)) + g t := by
  have h4 : (fun j => g (upd tag i t j)) = upd (fun j => g (tag j)) i (g t) := by
    funext j; unfold upd; split <;> rfl
  rw [h4]
  exact total_upd (fun j => g (tag j)) i (g t)

/-! ### programs -/

/-- `W a n p`: the program has `a` processes running, and never more than `n` -/
inductive W : Nat → Nat → Prog → Prop
  | ret {n} (r) : W 0 n (.ret r)
  | start {n c loc spec k} (hn : 1 ≤ n) (ht : W 1 n (k true)) (hf : W 0 n (k false)) : W 0 n (.act (.start c loc spec) k)
  | wait {n loc k} (hn : 1 ≤ n) (h : ∀ r, W 0 n (k r)) : W 1 n (.act (.wait loc) k)
  | act {n a k} (h1 : ∀ c l s, a ≠ .start c l s) (h2 : ∀ l, a ≠ .wait l) (h3 : ∀ x, (a.evs x).countP isStart = 0 ∧ (a.evs x).countP isEnd = 0)
      (h : ∀ x, W 0 n (k x)) : W 0 n (.act a k)
  | par {n lim ctx t it N st ps k} (f m : Fin N → Nat)
      (hw : ∀ i, st.tag i = .init ∨ st.tag i = .running → W (f i) (m i) (ps i))
      (h0 : ∀ i, st.tag i ≠ .running → f i = 0)
      (hs : lim ≠ 0 → total (fun i => slot (st.tag i)) = st.held ∧ st.held ≤ lim)
      (hg : total (fun i => open_ (st.tag i)) = st.wg)
      (hb : ∀ l : List (Fin N), l.Sublist (List.finRange N) → (lim ≠ 0 → l.length ≤ lim) → (l.map m).sum ≤ n)
      (hk : ∀ r, W 0 n (k r)) : W (total f) n (.par lim ctx t it N st ps k)

theorem W.le {a n : Nat} {p : Prog} (h : W a n p) : a ≤ n := by
  induction h with
  | ret => exact Nat.zero_le _
  | start => exact Nat.zero_le _
  | wait hn _ _ => exact hn
  | act => exact Nat.zero_le _
  | @par n lim ctx t it N st ps k f m hw h0 hs hg hb hk ih1 ih2 =>
    let l := (List.finRange N).filter fun i => decide (st.tag i = .running)
    have hl : l.Sublist (List.finRange N) := List.filter_sublist
    have h1 : ∀ l : List (Fin N), (l.map f).sum ≤ ((l.filter fun i => decide (st.tag i = .running)).map m).sum := by
      intro l
      induction l with
      | nil => exact Nat.le_refl _
      | cons i l ih =>
        by_cases hi : st.tag i = .running
        · rw [List.filter_cons_of_pos (by simpa using hi)]
          have := ih1 i (.inr hi)
          simp only [List.map_cons, List.sum_cons]; omega
        · rw [List.filter_cons_of_neg (by simpa using hi)]
          have := h0 i hi
          simp only [List.map_cons, List.sum_cons]; omega
    have h2 : ∀ l : List (Fin N), (l.filter fun i => decide (st.tag i = .running)).length ≤ (l.map fun i => slot (st.tag i)).sum := by
      intro l
      induction l with
      | nil => exact Nat.le_refl _
      | cons i l ih =>
        by_cases hi : st.tag i = .running
        · rw [List.filter_cons_of_pos (by simpa using hi)]
          simp only [List.map_cons, List.sum_cons, List.length_cons, hi]
          simp only [show slot Tag.running = 1 from rfl]; omega
        · rw [List.filter_cons_of_neg (by simpa using hi)]
          simp only [List.map_cons, List.sum_cons]; omega
    refine Nat.le_trans (h1 _) (hb l hl fun hlim => ?_)
    obtain ⟨h3, h4⟩ := hs hlim
    exact Nat.le_trans (h2 _) (by rw [← h3] at h4; exact h4)

theorem W.mono {a n n' : Nat} {p : Prog} (h : W a n p) (hn : n ≤ n') : W a n' p := by
  induction h with
  | ret r => exact .ret r
  | start h _ _ ih1 ih2 => exact .start (Nat.le_trans h hn) (ih1 hn) (ih2 hn)
  | wait h _ ih => exact .wait (Nat.le_trans h hn) fun r => ih r hn
  | act h1 h2 h3 _ ih => exact .act h1 h2 h3 fun x => ih x hn
  | par f m hw h0 hs hg hb _ _ ih2 =>
    exact .par f m hw h0 hs hg (fun l hl hc => Nat.le_trans (hb l hl hc) hn) fun r => ih2 r hn

theorem W.of_eq {a b n : Nat} {p : Prog} (h : a = b) (hp : W b n p) : W a n p := by
  subst h; exact hp

theorem W.bind {a n : Nat} {p : Prog} (h : W a n p) {q : Option Err → Prog} (hq : ∀ r, W 0 n (q r)) : W a n (p.bind q) := by
  induction h with
  | ret r => exact hq r
  | start h _ _ ih1 ih2 => exact .start h (ih1 hq) (ih2 hq)
  | wait h _ ih => exact .wait h fun r => ih r hq
  | act h1 h2 h3 _ ih => exact .act h1 h2 h3 fun x => ih x hq
  | par f m hw h0 hs hg hb _ _ ih2 => exact .par f m hw h0 hs hg hb fun r => ih2 r hq

/-- an event that is not the beginning or the end of a process -/
def other (e : Ev) : Bool := !isStart e && !isEnd e

theorem W.note {n : Nat} {p : Prog} {e : Ev} (he : other e = true) (h : W 0 n p) : W 0 n (.note e p) := by
  refine .act nofun nofun (fun _ => ?_) fun _ => h
  revert he
  simp only [other, Act.evs, List.countP_cons, List.countP_nil]
  cases isStart e <;> cases isEnd e <;> simp

theorem W.act0 {n : Nat} {a : Act} {k : a.Resp → Prog}
    (ha : match a with | .start _ _ _ => False | .wait _ => False | .emit _ => False | _ => True) (h : ∀ x, W 0 n (k x)) :
    W 0 n (.act a k) := by
  refine .act ?_ ?_ ?_ h
  · rintro c l s rfl; exact ha
  · rintro l rfl; exact ha
  · intro x
    cases a with
    | claim n => cases x <;> exact ⟨rfl, rfl⟩
    | start => exact ha.elim
    | wait => exact ha.elim
    | emit => exact ha.elim
    | _ => exact ⟨rfl, rfl⟩

/-! ### steps -/

abbrev starts (σ : Shared) : Nat := σ.trace.countP isStart
abbrev ends (σ : Shared) : Nat := σ.trace.countP isEnd

theorem step {p p' : Prog} {σ σ' : Shared} (hs : Step p σ p' σ') : ∀ {a n : Nat}, W a n p →
    ∃ a', W a' n p' ∧ starts σ' + ends σ + a = starts σ + ends σ' + a' := by
  induction hs with
  | act x hx =>
    intro a n h
    cases h with
    | start hn ht hf =>
      cases x
      · exact ⟨0, hf, by simp [starts, ends, Act.apply, Act.effect, Act.evs, isStart, isEnd]⟩
      · refine ⟨1, ht, ?_⟩
        simp [starts, ends, Act.apply, Act.effect, Act.evs, isStart, isEnd, List.countP_append]; omega
    | wait hn h =>
      refine ⟨0, h x, ?_⟩
      simp [starts, ends, Act.apply, Act.effect, Act.evs, isStart, isEnd, List.countP_append]; omega
    | act h1 h2 h3 h =>
      refine ⟨0, h x, ?_⟩
      simp only [starts, ends, Act.apply, List.countP_append, h3 x]; omega
  | @acquire lim ctx t it N st ps k σ i hi hl =>
    intro a n h
    cases h with
    | par f m hw h0 hs hg hb hk =>
      refine ⟨total f, .par f m (fun j hj => ?_) (fun j hj => ?_) (fun hlim => ?_) ?_ hb hk, rfl⟩
      · by_cases e : j = i
        · subst e; exact hw j (.inl hi)
        · dsimp only at hj; rw [upd_other _ _ e] at hj; exact hw j hj
      · by_cases e : j = i
        · subst e; dsimp only at hj; rw [upd_self] at hj; exact absurd rfl hj
        · dsimp only at hj; rw [upd_other _ _ e] at hj; exact h0 j hj
      · obtain ⟨h1, h2⟩ := hs hlim
        have h3 := hl.resolve_left hlim
        have h5 := map_upd slot st.tag i .running
        rw [hi] at h5
        simp only [show slot .init = 0 from rfl, show slot .running = 1 from rfl, show slot .returned = 1 from rfl, show slot .released = 0 from rfl] at h5
        simp only [if_neg hlim]
        omega
      · have h5 := map_upd open_ st.tag i .running
        rw [hi, hg] at h5
        exact Nat.add_right_cancel h5
  | @abort lim ctx t it N st ps k σ i hi hl hc =>
    intro a n h
    cases h with
    | par f m hw h0 hs hg hb hk =>
      refine ⟨total f, .par f m (fun j hj => ?_) (fun j hj => ?_) (fun hlim => ?_) ?_ hb hk, by simp [starts, ends, isStart, isEnd]⟩
      · by_cases e : j = i
        · subst e; dsimp only at hj; rw [upd_self] at hj; rcases hj with h | h <;> cases h
        · dsimp only at hj; rw [upd_other _ _ e] at hj; exact hw j hj
      · by_cases e : j = i
        · subst e; exact h0 j (by rw [hi]; nofun)
        · dsimp only at hj; rw [upd_other _ _ e] at hj; exact h0 j hj
      · obtain ⟨h1, h2⟩ := hs hlim
        have h5 := map_upd slot st.tag i .done
        rw [hi] at h5
        exact ⟨Nat.add_right_cancel (h5.trans (by rw [h1]; rfl)), h2⟩
      · have h5 := map_upd open_ st.tag i .done
        rw [hi, hg] at h5
        simp only [show open_ .init = 1 from rfl, show open_ .running = 1 from rfl, show open_ .returned = 1 from rfl, show open_ .released = 1 from rfl, show open_ .done = 0 from rfl] at h5
        dsimp only
        omega
  | @child lim ctx t it N st ps k σ p' σ' i hi hs ih =>
    intro a n h
    cases h with
    | par f m hw h0 hh hg hb hk =>
      obtain ⟨a', h1, h2⟩ := ih (hw i (.inr hi))
      refine ⟨total (upd f i a'), .par (upd f i a') m (fun j hj => ?_) (fun j hj => ?_) hh hg hb hk, ?_⟩
      · by_cases e : j = i
        · subst e; rw [upd_self, upd_self]; exact h1
        · rw [upd_other _ _ e, upd_other _ _ e]; exact hw j hj
      · by_cases e : j = i
        · subst e; exact absurd hi hj
        · rw [upd_other _ _ e]; exact h0 j hj
      · have := total_upd f i a'
        omega
  | @finish lim ctx t it N st ps k σ r i hi hr =>
    intro a n h
    cases h with
    | par f m hw h0 hs hg hb hk =>
      have hf : f i = 0 := by
        have := hw i (.inr hi)
        rw [hr] at this
        generalize f i = x at this
        cases this
        rfl
      refine ⟨total f, .par f m (fun j hj => ?_) (fun j hj => ?_) (fun hlim => ?_) ?_ hb hk, rfl⟩
      · by_cases e : j = i
        · subst e; dsimp only at hj; rw [upd_self] at hj; rcases hj with h | h <;> cases h
        · dsimp only at hj; rw [upd_other _ _ e] at hj; exact hw j hj
      · by_cases e : j = i
        · subst e; exact hf
        · dsimp only at hj; rw [upd_other _ _ e] at hj; exact h0 j hj
      · obtain ⟨h1, h2⟩ := hs hlim
        have h5 := map_upd slot st.tag i .returned
        rw [hi] at h5
        exact ⟨Nat.add_right_cancel (h5.trans (by rw [h1]; rfl)), h2⟩
      · have h5 := map_upd open_ st.tag i .returned
        rw [hi, hg] at h5
        simp only [show open_ .init = 1 from rfl, show open_ .running = 1 from rfl, show open_ .returned = 1 from rfl, show open_ .released = 1 from rfl, show open_ .done = 0 from rfl] at h5
        dsimp only
        omega
  | @release lim ctx t it N st ps k σ i hi =>
    intro a n h
    cases h with
    | par f m hw h0 hs hg hb hk =>
      refine ⟨total f, .par f m (fun j hj => ?_) (fun j hj => ?_) (fun hlim => ?_) ?_ hb hk, rfl⟩
      · by_cases e : j = i
        · subst e; dsimp only at hj; rw [upd_self] at hj; rcases hj with h | h <;> cases h
        · dsimp only at hj; rw [upd_other _ _ e] at hj; exact hw j hj
      · by_cases e : j = i
        · subst e; exact h0 j (by rw [hi]; nofun)
        · dsimp only at hj; rw [upd_other _ _ e] at hj; exact h0 j hj
      · obtain ⟨h1, h2⟩ := hs hlim
        have h5 := map_upd slot st.tag i .released
        rw [hi] at h5
        simp only [show slot .init = 0 from rfl, show slot .running = 1 from rfl, show slot .returned = 1 from rfl, show slot .released = 0 from rfl] at h5
        simp only [if_neg hlim]
        omega
      · have h5 := map_upd open_ st.tag i .released
        rw [hi, hg] at h5
        exact Nat.add_right_cancel h5
  | @wgDone lim ctx t it N st ps k σ i hi =>
    intro a n h
    cases h with
    | par f m hw h0 hs hg hb hk =>
      refine ⟨total f, .par f m (fun j hj => ?_) (fun j hj => ?_) (fun hlim => ?_) ?_ hb hk, rfl⟩
      · by_cases e : j = i
        · subst e; dsimp only at hj; rw [upd_self] at hj; rcases hj with h | h <;> cases h
        · dsimp only at hj; rw [upd_other _ _ e] at hj; exact hw j hj
      · by_cases e : j = i
        · subst e; exact h0 j (by rw [hi]; nofun)
        · dsimp only at hj; rw [upd_other _ _ e] at hj; exact h0 j hj
      · obtain ⟨h1, h2⟩ := hs hlim
        have h5 := map_upd slot st.tag i .done
        rw [hi] at h5
        exact ⟨Nat.add_right_cancel (h5.trans (by rw [h1]; rfl)), h2⟩
      · have h5 := map_upd open_ st.tag i .done
        rw [hi, hg] at h5
        simp only [show open_ .init = 1 from rfl, show open_ .running = 1 from rfl, show open_ .returned = 1 from rfl, show open_ .released = 1 from rfl, show open_ .done = 0 from rfl] at h5
        dsimp only
        omega
  | @join lim ctx t it N st ps k σ hwg =>
    intro a n h
    cases h with
    | par f m hw h0 hs hg hb hk =>
      refine ⟨0, hk _, ?_⟩
      have : total f = 0 := total_zero fun i => h0 i fun hi => ?_
      · rw [this]
      · have h1 : ∀ l : List (Fin N), i ∈ l → 1 ≤ (l.map fun i => open_ (st.tag i)).sum := by
          intro l
          induction l with
          | nil => exact fun h => by cases h
          | cons j l ih =>
            intro h
            simp only [List.map_cons, List.sum_cons]
            rcases List.mem_cons.mp h with rfl | h
            · rw [hi]; exact Nat.le_add_right 1 _
            · exact Nat.le_trans (ih h) (Nat.le_add_left _ _)
        have h2 : 1 ≤ total fun i => open_ (st.tag i) := h1 _ (List.mem_finRange i)
        omega

/-! ### the functions of the runner -/

section Run
variable {c : Cfg} {tasks : TaskMap} {w : Str → Nat} {rec : Rec} {n : Nat}

theorem readVars {v : VarEnv} {k : GoMap Str → Prog} (h : ∀ m, W 0 n (k m)) : W 0 n (readVars v k) := by
  unfold Bab.readVars
  cases v with
  | own m => exact h m
  | global => exact .act0 (by exact trivial) h

theorem writeVar {v : VarEnv} {x y : Str} {k : VarEnv → Prog} (h : ∀ v, W 0 n (k v)) : W 0 n (writeVar v x y k) := by
  unfold Bab.writeVar
  cases v with
  | own m => exact h _
  | global => exact .act0 (by exact trivial) fun _ => h _

theorem proc (hn : 1 ≤ n) (t : Str) (fr : Frame) (loc : Loc) (spec : ProcSpec) : W 0 n (runProc t fr loc spec) := by
  unfold runProc
  refine .start hn ?_ ?_
  · refine .wait hn fun r => ?_
    cases r with
    | none => exact .ret _
    | some code => exact .act0 (by exact trivial) fun _ => .ret _
  · exact .act0 (by exact trivial) fun _ => .ret _

theorem command (hn : 1 ≤ n) (T : Task) (fr : Frame) (loc : Loc) (v : CommandRun) (vars : VarEnv) (tenv : GoMap Str) :
    W 0 n (executeCommand c T fr loc v vars tenv) := by
  unfold executeCommand
  split
  · exact .ret _
  · refine readVars fun m => .note rfl ?_
    split
    · exact .ret _
    · split
      · exact .note rfl (.ret _)
      · dsimp only
        split
        · exact proc hn ..
        · exact .note rfl (proc hn ..)

variable (hrec : ∀ fr b d, W 0 (w d) (rec fr b d))
include hrec

theorem runItem {item : RunItem} (hi : need w item ≤ n) (T : Task) (fr : Frame) (loc : Loc) (vars : VarEnv) (tenv : GoMap Str) :
    W 0 n (executeRunItem c rec T fr loc item vars tenv) := by
  unfold executeRunItem
  split
  · exact command hi ..
  · split
    · exact .note rfl (.ret _)
    · exact (hrec ..).mono hi
  · refine readVars fun m => .note rfl ?_
    split
    · exact .ret _
    · split
      · exact .note rfl (.ret _)
      · exact .note rfl (.ret _)
  · exact .ret _

theorem preDeps (fr : Frame) {l : List Str} (hl : ∀ d ∈ l, w d ≤ n) {k : List Str → Prog} (hk : ∀ x, W 0 n (k x)) (seen : List Str) :
    W 0 n (preDeps rec fr l seen k) := by
  induction l generalizing seen with
  | nil => exact hk seen
  | cons d l ih =>
    have ih := ih fun d hd => hl d (List.mem_cons_of_mem _ hd)
    unfold Bab.preDeps
    split
    · exact ih _
    · refine .act0 (by exact trivial) fun x => ?_
      split
      · exact ih _
      · unfold Prog.andThen
        refine W.bind ((hrec ..).mono (hl d List.mem_cons_self)) fun r => ?_
        cases r with
        | none => exact ih _
        | some e => exact .ret _

theorem preResolve (fr : Frame) {items : List RunItem}
    (hi : ∀ t, .task t ∈ items → ∀ T, tasks.get? t.task = some T → ∀ d ∈ T.deps, w d ≤ n) {k : Prog} (hk : W 0 n k) (seen : List Str) :
    W 0 n (preResolveDeps tasks rec fr items seen k) := by
  induction items generalizing seen with
  | nil => exact hk
  | cons it items ih =>
    have ih := ih fun t ht => hi t (List.mem_cons_of_mem _ ht)
    unfold preResolveDeps
    cases it with
    | task t =>
      dsimp only
      cases hT : tasks.get? t.task with
      | none => exact .ret _
      | some T => exact preDeps hrec fr (hi t List.mem_cons_self T hT) (fun x => ih x) seen
    | _ => exact ih seen

theorem block {items : List RunItem} {lim : Nat}
    (hb : ∀ together : List RunItem, together.Sublist items → (lim ≠ 0 → together.length ≤ lim) → (together.map (need w)).sum ≤ n)
    (ctx : CtxPath) (name : Str) (i : Nat) (labels : List Str) {child : Nat → RunItem → Prog}
    (hc : ∀ j item, W 0 (need w item) (child j item)) : W 0 n (runBlock lim ctx name i items labels child) := by
  unfold runBlock
  refine W.of_eq (total_zero (n := items.length) (f := fun _ => 0) fun _ => rfl).symm ?_
  refine .par (fun _ => 0) (fun j => need w (items.get j)) (fun j _ => ?_) (fun _ _ => rfl) (fun _ => ⟨total_zero fun _ => rfl, Nat.zero_le _⟩) ?_ ?_ ?_
  · exact .note rfl ((hc j _).bind fun r => .note rfl (.ret _))
  · dsimp only
    unfold total
    show ((List.finRange items.length).map fun _ => 1).sum = items.length
    have : ∀ l : List (Fin items.length), (l.map fun _ => 1).sum = l.length := by
      intro l
      induction l with
      | nil => rfl
      | cons _ l ih => simp only [List.map_cons, List.sum_cons, List.length_cons, ih]; omega
    rw [this, List.length_finRange]
  · intro l hl hlim
    have h1 : (l.map items.get).Sublist items := by
      have := hl.map items.get
      rwa [show (List.finRange items.length).map items.get = items by
        apply List.ext_getElem <;> simp] at this
    have := hb _ h1 (by simpa using hlim)
    rwa [List.map_map] at this
  · exact fun r => .note rfl (.ret _)

variable (hB : Budget tasks w)
include hB

theorem parallel {items : List RunItem} {lim : Nat}
    (hb : ∀ together : List RunItem, together.Sublist items → (lim ≠ 0 → together.length ≤ lim) → (together.map (need w)).sum ≤ n)
    (name : Str) (T : Task) (fr : Frame) (i : Nat) (labels : List Str) (mode : ParallelMode) (color silent output : Option Bool) (m tenv : GoMap Str) :
    W 0 n (executeParallel c tasks rec name T fr i items labels mode lim color silent output m tenv) := by
  unfold executeParallel
  refine preResolve hrec _ (fun t ht T' hT' d hd => ?_) ?_ []
  · have h1 := hb [.task t] (List.singleton_sublist.mpr ht) (fun h => Nat.one_le_iff_ne_zero.mpr h)
    have h2 := hB.deps _ _ hT' d hd
    simp only [List.map_cons, List.map_nil, List.sum_cons, List.sum_nil, need] at h1
    omega
  · split
    · exact .note rfl (.ret _)
    · dsimp only
      split
      · unfold executeParallelTUI
        have : ∀ (ctx : CtxPath) (base : List Nat), W 0 n (.note (.parBegin name i m) <|
            runBlock lim ctx name i items labels fun j item =>
              executeRunItem c rec T { fr with
                  noColor := fr.noColor || !(color == none || color == some true)
                  ovSilent := if silent.isSome then silent else fr.ovSilent
                  ovOutput := if output.isSome then output else fr.ovOutput
                  ctx := ctx, out := some ⟨base ++ [j], []⟩, pctx := some (base ++ [j]) }
                ⟨name, i, some j⟩ item (.own m) tenv) :=
          fun ctx base => .note rfl (block hrec hb _ _ _ _ fun j item => runItem hrec (Nat.le_refl _) ..)
        dsimp only
        split
        · exact this _ _
        · refine .act0 (by exact trivial) fun x => .act0 (by exact trivial) fun b => ?_
          split
          · exact this _ _
          · exact .ret _
      · unfold executeParallelInterleaved
        exact .note rfl (block hrec hb _ _ _ _ fun j item => runItem hrec (Nat.le_refl _) ..)

omit hrec hB in
theorem prompt (t : Str) (loc : Loc) (p : PromptRun) (vars : VarEnv) {k : Option Err → VarEnv → Prog} (hk : ∀ r v, W 0 n (k r v)) :
    W 0 n (executePrompt c t loc p vars k) := by
  unfold executePrompt
  have got : ∀ r : Except Err Str, W 0 n (match r with
      | .error e => k (some (.wrap (.prompt t p.prompt) e)) vars
      | .ok ans => Bab.writeVar vars p.prompt ans (k none)) := by
    intro r
    cases r with
    | error e => exact hk _ _
    | ok a => exact writeVar fun v => hk _ v
  refine readVars fun m => .note rfl ?_
  split
  · exact hk _ _
  · split
    · exact .note rfl (hk _ _)
    · dsimp only
      split
      · exact .act0 (by exact trivial) got
      · exact .note rfl (got _)

theorem item {it : RunItem} (hi : Enough w n it) (name : Str) (T : Task) (fr : Frame) (i : Nat) (vars : VarEnv) (tenv : GoMap Str)
    {k : Option Err → VarEnv → Prog} (hk : ∀ r v, W 0 n (k r v)) :
    W 0 n (executeItem c tasks rec name T fr i it vars tenv k) := by
  unfold executeItem
  cases it with
  | prompt p => exact prompt _ _ _ _ hk
  | parallel items labels mode lim color silent output l w ln =>
    dsimp only
    split
    · exact .note rfl (hk _ _)
    · exact readVars fun m => (parallel hrec hB hi ..).bind fun r => hk _ _
  | command v => exact (runItem hrec hi ..).bind fun r => hk _ _
  | log l => exact (runItem hrec hi ..).bind fun r => hk _ _
  | task t => exact (runItem hrec hi ..).bind fun r => hk _ _

theorem items {l : List RunItem} (hl : ∀ i ∈ l, Enough w n i) (name : Str) (T : Task) (fr : Frame) (tenv : GoMap Str) (i : Nat) (vars : VarEnv)
    (e s : Nat) : W 0 n (executeItems c tasks rec name T fr tenv l i vars e s) := by
  induction l generalizing i vars e s with
  | nil => unfold executeItems; split <;> exact .ret _
  | cons it l ih =>
    have ih := ih fun i hi => hl i (List.mem_cons_of_mem _ hi)
    unfold executeItems
    refine .act0 (by exact trivial) fun b => ?_
    split
    · exact .ret _
    · split
      · exact .note rfl (ih ..)
      · have go : ∀ x : Option (GoMap Str), W 0 n (.note (.itemStart name i x) <|
            executeItem c tasks rec name T fr i it vars tenv fun r vars' =>
              .note (.itemEnd name i r) <|
              match r with
              | some e => .ret (some e)
              | none => executeItems c tasks rec name T fr tenv l (i + 1) vars' (e + 1) s) := by
          refine fun x => .note rfl (item hrec hB (hl it List.mem_cons_self) _ _ _ _ _ _ fun r v => .note rfl ?_)
          cases r with
          | some e => exact .ret _
          | none => exact ih ..
        dsimp only
        split
        · exact go _
        · refine readVars fun m => ?_
          split
          · exact .ret _
          · exact .note rfl (ih ..)
          · exact go _

theorem task {name : Str} {T : Task} (hT : ∀ i ∈ T.run, Enough w n i) (fr : Frame) : W 0 n (executeTask c tasks rec name T fr) := by
  unfold executeTask
  refine .act0 (by exact trivial) fun g => ?_
  split
  · exact .ret _
  · refine .note rfl ?_
    split
    · exact .ret _
    · exact items hrec hB hT ..

omit hB in
theorem deps (name : Str) (fr : Frame) {k : Prog} (hk : W 0 n k) {l : List Str} (hl : ∀ d ∈ l, w d ≤ n) (i : Nat) :
    W 0 n (runDeps rec name fr k l i) := by
  induction l generalizing i with
  | nil => exact hk
  | cons d l ih =>
    unfold runDeps
    refine ((hrec ..).mono (hl d List.mem_cons_self)).bind fun r => ?_
    cases r with
    | none => exact .note rfl (ih (fun d hd => hl d (List.mem_cons_of_mem _ hd)) _)
    | some e => exact .note rfl (.ret _)

theorem body (fr : Frame) (b : Bool) (name : Str) : W 0 (w name) (runTaskBody c tasks rec fr b name) := by
  unfold runTaskBody
  cases hT : tasks.get? name with
  | none => exact .ret _
  | some T =>
    dsimp only
    have fin : W 0 (w name) (.act (.setDone name) fun _ => .ret none) := .act0 (by exact trivial) fun _ => .ret _
    have hd : W 0 (w name) (runDeps rec name fr
        (if T.run = [] then .act (.setDone name) fun _ => .ret none
         else (executeTask c tasks rec name T fr).bind fun
          | some e => .ret (some e)
          | none => .act (.setDone name) fun _ => .ret none) T.deps 0) := by
      refine deps hrec name fr ?_ (hB.deps name T hT) 0
      split
      · exact fin
      · refine (task hrec hB (hB.run name T hT) fr).bind fun r => ?_
        cases r with
        | none => exact fin
        | some e => exact .ret _
    have go : W 0 (w name) (if (!c.dry && !isSilent [fr.ovSilent, T.silent, c.globalSilent]) = true then
        .note (.echoTask name b fr.out) (runDeps rec name fr
        (if T.run = [] then .act (.setDone name) fun _ => .ret none
         else (executeTask c tasks rec name T fr).bind fun
          | some e => .ret (some e)
          | none => .act (.setDone name) fun _ => .ret none) T.deps 0) else (runDeps rec name fr
        (if T.run = [] then .act (.setDone name) fun _ => .ret none
         else (executeTask c tasks rec name T fr).bind fun
          | some e => .ret (some e)
          | none => .act (.setDone name) fun _ => .ret none) T.deps 0)) := by
      split
      · exact .note rfl hd
      · exact hd
    split
    · exact go
    · refine .act0 (by exact trivial) fun g => ?_
      split
      · exact .ret _
      · exact .note rfl fin
      · exact .note rfl go

omit hrec in
theorem run (fuel : Nat) (fr : Frame) (b : Bool) (name : Str) : W 0 (w name) (Bab.runTask c tasks fuel fr b name) := by
  induction fuel generalizing fr b name with
  | zero => exact .act0 (by exact trivial) fun _ => .ret _
  | succ fuel ih =>
    unfold Bab.runTask
    refine .act0 (by exact trivial) fun x => ?_
    split
    · exact .ret _
    · exact .act0 (by exact trivial) fun _ => .ret _
    · exact (body ih hB fr b name).bind fun r => .note rfl (.ret _)

end Run

/-- at every moment the processes that run are those of the program -/
theorem reach {c : Cfg} {tasks : TaskMap} {w : Str → Nat} (hB : Budget tasks w) {gvars : GoMap Str} {main : Str} {s : State}
    (h : Reach (start c tasks gvars main) s) : ∃ a, W a (w main) s.prog ∧ starts s.sh = ends s.sh + a := by
  induction h with
  | refl => exact ⟨0, run hB .., rfl⟩
  | step _ hs ih =>
    obtain ⟨a, h1, h2⟩ := ih
    cases hs with
    | prog hs =>
      obtain ⟨a', h3, h4⟩ := step hs h1
      exact ⟨a', h3, by dsimp only at h2 ⊢; omega⟩
    | cancel id hid => exact ⟨a, h1, by simpa [starts, ends, isStart, isEnd] using h2⟩

end Width
end Bab
