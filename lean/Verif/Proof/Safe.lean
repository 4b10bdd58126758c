import Verif.Model.Prog
import Verif.Proof.GoMap
/-
A program logic with two kinds of knowledge: `F`, events known to have happened (by anybody), and
`O`, a bound on the events this program has emitted itself. `Safe p Post F O` says that from here on
every action of `p` meets the requirement `req`, whatever other goroutines do in between, and that
when `p` returns `r`, `Post` holds.
-/

namespace Bab

namespace Safe

abbrev Facts := Ev → Prop
abbrev Post := Facts → Facts → Option Err → Prop

/-- the number of goroutines of a block whose tag satisfies `P` -/
def cnt {n : Nat} (P : Tag → Bool) (tag : Fin n → Tag) : Nat := (List.finRange n).countP (fun i => P (tag i))

/-- the goroutine holds a slot of the semaphore -/
def Tag.holds : Tag → Bool
  | .running | .returned => true
  | _ => false

/-- the bookkeeping of a block is right -/
structure BlockOk (lim : Nat) {n : Nat} (st : BState n) : Prop where
  wg : st.wg = cnt (fun t => t ≠ .done) st.tag
  held : lim ≠ 0 → st.held = cnt Tag.holds st.tag
  limit : lim ≠ 0 → st.held ≤ lim

/-- answers that are possible given what has happened -/
def Plaus (ig : GoMap Str → Prop) (F : Facts) : (a : Act) → a.Resp → Prop
  | .claim n, none => ¬ F (.claimed n)
  | .claim n, some .running => ¬ F (.done n)
  | .claim _, some .done => True
  | .globals, g => ig g
  | .setDone _, _ => True
  | .status _, _ => True
  | .snapshot, _ => True
  | .setGlobal _ _, _ => True
  | .cancelled _, _ => True
  | .newCtx, _ => True
  | .start _ _ _, _ => True
  | .wait _, _ => True
  | .prompt _ _, _ => True
  | .tui, _ => True
  | .emit _, _ => True
  | .fuel, _ => True

/-- what an answer tells about the past -/
def Learn : (a : Act) → a.Resp → Facts → Prop
  | .claim n, some .done, L => L = (· = .done n)
  | .claim n, some .running, L => L = (· = .claimed n)
  | .claim _, none, L => L = fun _ => False
  | .status n, r, L => L = fun e => (r : Option Status) = some .done ∧ e = .done n
  | .cancelled c, b, L => ((b : Bool) = true ∧ ∃ id ∈ c, L = (· = .cancel id)) ∨ ((b : Bool) = false ∧ L = fun _ => False)
  | .setDone _, _, L => L = fun _ => False
  | .snapshot, _, L => L = fun _ => False
  | .globals, _, L => L = fun _ => False
  | .setGlobal _ _, _, L => L = fun _ => False
  | .newCtx, _, L => L = fun _ => False
  | .start _ _ _, _, L => L = fun _ => False
  | .wait _, _, L => L = fun _ => False
  | .prompt _ _, _, L => L = fun _ => False
  | .tui, _, L => L = fun _ => False
  | .emit _, _, L => L = fun _ => False
  | .fuel, _, L => L = fun _ => False

/-- requirements without which the logic would be unsound: annotations do not forge the events of
the claim table and of cancellation, and writes keep the invariant of the global variables -/
def BaseReq (ig : GoMap Str → Prop) : Act → Prop
  | .emit e => (∀ n, e ≠ .claimed n) ∧ (∀ n, e ≠ .done n) ∧ (∀ id, e ≠ .cancel id)
  | .setGlobal k v => ∀ g, ig g → ig (g.set k v)
  | _ => True

section
variable (req : Facts → (a : Act) → a.Resp → Prop) (ig : GoMap Str → Prop)

/-- the child has returned, and its failure is recorded -/
def Ended (G : Post) (F O : Facts) (first : Option Err) : Prop :=
  ∃ r, G F O r ∧ (r.isSome → first.isSome)

/-- the child was dropped while waiting for the semaphore -/
def Aborted (ctx : CtxPath) (t : Str) (it : Nat) (j : Nat) (F O : Facts) : Prop :=
  F (.subAbort t it j) ∧ (∃ id ∈ ctx, F (.cancel id)) ∧ ∀ e, ¬ O e

def TagOk (ctx : CtxPath) (t : Str) (it : Nat) (j : Nat) (G : Post) (F O : Facts) (first : Option Err) :
    Tag → Prop
  | .init => ∀ e, ¬ O e
  | .running => True
  | .returned => Ended G F O first
  | .released => Ended G F O first
  | .done => Ended G F O first ∨ Aborted ctx t it j F O

def Mono (G : Post) : Prop := ∀ F F' O r, (∀ e, F e → F' e) → G F O r → G F' O r

def Safe : Prog → Post → Facts → Facts → Prop
  | .ret r, P, F, O => P F O r
  | .act a k, P, F, O => ∀ x, Plaus ig F a x → BaseReq ig a ∧ req F a x ∧
      ∀ L, Learn a x L → Safe (k x) P (fun e => F e ∨ e ∈ a.evs x ∨ L e) (fun e => O e ∨ e ∈ a.evs x)
  | .par lim ctx t it n st ps k, P, F, O =>
      ∃ (G : Fin n → Post) (B : Facts) (Oi : Fin n → Facts),
        (∀ i, Mono (G i)) ∧ (∀ i, Safe (ps i) (G i) F (Oi i)) ∧ BlockOk lim st ∧
        (∀ e, O e → B e ∨ ∃ i, Oi i e) ∧
        (∀ i : Fin n, TagOk ctx t it i (G i) F (Oi i) st.first (st.tag i)) ∧
        (∀ e, st.first = some e → ∃ i, st.tag i ≠ .init ∧ st.tag i ≠ .running ∧ G i F (Oi i) (some e)) ∧
        ∀ (F' : Facts) (Oi' : Fin n → Facts) (first : Option Err), (∀ e, F e → F' e) →
          (∀ i : Fin n, Ended (G i) F' (Oi' i) first ∨ Aborted ctx t it i F' (Oi' i)) →
          (∀ e, first = some e → ∃ i, G i F' (Oi' i) (some e)) →
          Safe (k first) P F' (fun e => B e ∨ ∃ i, Oi' i e)

variable {req ig}

def ReqMono (req : Facts → (a : Act) → a.Resp → Prop) : Prop :=
  ∀ F F' a x, (∀ e, F e → F' e) → req F a x → req F' a x

theorem plaus_anti {F F' : Facts} {a : Act} {x : a.Resp} (h : ∀ e, F e → F' e) (hp : Plaus ig F' a x) :
    Plaus ig F a x := by
  cases a <;> try exact hp
  cases x with
  | none => exact fun hF => hp (h _ hF)
  | some s =>
    cases s with
    | running => exact fun hF => hp (h _ hF)
    | done => trivial

theorem ended_mono {G : Post} (hG : Mono G) {F F' O : Facts} {first : Option Err} (h : ∀ e, F e → F' e)
    (he : Ended G F O first) : Ended G F' O first := by
  obtain ⟨r, h1, h2⟩ := he
  exact ⟨r, hG _ _ _ _ h h1, h2⟩

theorem aborted_mono {ctx : CtxPath} {t : Str} {it j : Nat} {F F' O : Facts} (h : ∀ e, F e → F' e)
    (ha : Aborted ctx t it j F O) : Aborted ctx t it j F' O := by
  obtain ⟨h1, ⟨id, hid, h2⟩, h3⟩ := ha
  exact ⟨h _ h1, ⟨id, hid, h _ h2⟩, h3⟩

theorem tagOk_mono {ctx : CtxPath} {t : Str} {it j : Nat} {G : Post} (hG : Mono G) {F F' O : Facts}
    {first : Option Err} {tag : Tag} (h : ∀ e, F e → F' e) (ht : TagOk ctx t it j G F O first tag) :
    TagOk ctx t it j G F' O first tag := by
  cases tag with
  | init => exact ht
  | running => trivial
  | returned => exact ended_mono hG h ht
  | released => exact ended_mono hG h ht
  | done => exact ht.imp (ended_mono hG h) (aborted_mono h)

theorem safe_mono (hreq : ReqMono req) {p : Prog} {P : Post} (hP : Mono P) {F F' O : Facts}
    (h : Safe req ig p P F O) (hF : ∀ e, F e → F' e) : Safe req ig p P F' O := by
  induction p generalizing P F F' O with
  | ret r => exact hP _ _ _ _ hF h
  | act a k ih =>
    intro x hx
    obtain ⟨h0, h1, h2⟩ := h x (plaus_anti hF hx)
    refine ⟨h0, hreq _ _ _ _ hF h1, fun L hL => ih x hP (h2 L hL) ?_⟩
    rintro e (he | he)
    · exact Or.inl (hF e he)
    · exact Or.inr he
  | par lim ctx t it n st ps k ih1 ih2 =>
    obtain ⟨G, B, Oi, h1, h2, h3, h4, h5, h6, h7⟩ := h
    refine ⟨G, B, Oi, h1, fun i => ih1 i (h1 i) (h2 i) hF, h3, h4, fun i => tagOk_mono (h1 i) hF (h5 i), ?_, ?_⟩
    · intro e he
      obtain ⟨i, ha, hb, hi⟩ := h6 e he
      exact ⟨i, ha, hb, h1 i _ _ _ _ hF hi⟩
    · intro F2 Oi' first h8 h9 h10
      exact h7 F2 Oi' first (fun e he => h8 e (hF e he)) h9 h10

theorem safe_bind {p : Prog} {f : Option Err → Prog} {P Q : Post} {F0 F O : Facts}
    (h0 : ∀ e, F0 e → F e) (h : Safe req ig p Q F O)
    (hf : ∀ F' O' r, (∀ e, F0 e → F' e) → Q F' O' r → Safe req ig (f r) P F' O') :
    Safe req ig (p.bind f) P F O := by
  induction p generalizing F O with
  | ret r => exact hf _ _ _ h0 h
  | act a k ih =>
    intro x hx
    obtain ⟨h1, h2, h3⟩ := h x hx
    exact ⟨h1, h2, fun L hL => ih x (fun e he => Or.inl (h0 e he)) (h3 L hL)⟩
  | par lim ctx t it n st ps k ih1 ih2 =>
    obtain ⟨G, B, Oi, h1, h2, h3, h4, h5, h6, h7⟩ := h
    refine ⟨G, B, Oi, h1, h2, h3, h4, h5, h6, ?_⟩
    intro F2 Oi' first h8 h9 h10
    exact ih2 first (fun e he => h8 e (h0 e he)) (h7 F2 Oi' first h8 h9 h10)

theorem safe_weaken {p : Prog} {P Q : Post} {F O : Facts} (h : Safe req ig p Q F O)
    (hPQ : ∀ F' O' r, (∀ e, F e → F' e) → Q F' O' r → P F' O' r) : Safe req ig p P F O := by
  have key : ∀ (F1 : Facts), (∀ e, F e → F1 e) → Safe req ig p Q F1 O → Safe req ig p P F1 O := by
    clear h
    induction p generalizing O with
    | ret r => intro F1 h1 h; exact hPQ _ _ _ h1 h
    | act a k ih =>
      intro F1 hF1 h x hx
      obtain ⟨h1, h2, h3⟩ := h x hx
      exact ⟨h1, h2, fun L hL => ih x _ (fun e he => Or.inl (hF1 e he)) (h3 L hL)⟩
    | par lim ctx t it n st ps k ih1 ih2 =>
      intro F1 hF1 h
      obtain ⟨G, B, Oi, h1, h2, h3, h4, h5, h6, h7⟩ := h
      refine ⟨G, B, Oi, h1, h2, h3, h4, h5, h6, ?_⟩
      intro F2 Oi' first h8 h9 h10
      exact ih2 first F2 (fun e he => h8 e (hF1 e he)) (h7 F2 Oi' first h8 h9 h10)
  exact key F (fun _ h => h) h

/-! ### Counting tags -/

theorem countP_eq_of {α : Type} {l : List α} {p q : α → Bool} (h : ∀ x ∈ l, p x = q x) :
    l.countP p = l.countP q := by
  induction l with
  | nil => rfl
  | cons a l ih =>
    simp only [List.countP_cons, h a (by simp), ih (fun x hx => h x (by simp [hx]))]

theorem countP_upd_list {n : Nat} (P : Tag → Bool) (tag : Fin n → Tag) (i : Fin n) (x : Tag)
    {l : List (Fin n)} (hn : l.Nodup) (hi : i ∈ l) :
    l.countP (fun j => P (upd tag i x j)) + (if P (tag i) then 1 else 0) =
      l.countP (fun j => P (tag j)) + (if P x then 1 else 0) := by
  induction l with
  | nil => cases hi
  | cons a l ih =>
    rw [List.nodup_cons] at hn
    by_cases ha : a = i
    · subst ha
      have hh : l.countP (fun j => P (upd tag a x j)) = l.countP (fun j => P (tag j)) := by
        apply countP_eq_of
        intro y hy
        have : y ≠ a := fun h => hn.1 (h ▸ hy)
        simp [upd, this]
      have hu : upd tag a x a = x := by simp [upd]
      simp only [List.countP_cons, hh, hu]
      omega
    · have hi' : i ∈ l := by
        rcases List.mem_cons.mp hi with h | h
        · exact absurd h.symm ha
        · exact h
      have h1 := ih hn.2 hi'
      have h2 : upd tag i x a = tag a := by simp [upd, ha]
      simp only [List.countP_cons, h2]
      omega

theorem cnt_upd {n : Nat} (P : Tag → Bool) (tag : Fin n → Tag) (i : Fin n) (x : Tag) :
    cnt P (upd tag i x) + (if P (tag i) then 1 else 0) = cnt P tag + (if P x then 1 else 0) :=
  countP_upd_list P tag i x (List.nodup_finRange n) (List.mem_finRange i)

theorem cnt_zero {n : Nat} {P : Tag → Bool} {tag : Fin n → Tag} (h : cnt P tag = 0) (i : Fin n) :
    P (tag i) = false := by
  have := List.countP_eq_zero.mp h i (List.mem_finRange i)
  simpa using this

theorem cnt_pos {n : Nat} {P : Tag → Bool} {tag : Fin n → Tag} (h : 0 < cnt P tag) : ∃ i, P (tag i) = true := by
  obtain ⟨i, _, hi⟩ := List.countP_pos_iff.mp h
  exact ⟨i, hi⟩

theorem cnt_le {n : Nat} {P : Tag → Bool} {tag : Fin n → Tag} : cnt P tag ≤ n := by
  unfold cnt
  calc _ ≤ (List.finRange n).length := List.countP_le_length
    _ = n := List.length_finRange

/-! ### Soundness -/

/-- what ties the shared state to the trace -/
structure Inv (ig : GoMap Str → Prop) (σ : Shared) : Prop where
  running : ∀ n, σ.status.get? n = some .running → .claimed n ∈ σ.trace
  done : ∀ n, σ.status.get? n = some .done → .done n ∈ σ.trace
  claimed : ∀ n, .claimed n ∈ σ.trace → σ.status.get? n ≠ none
  isDone : ∀ n, .done n ∈ σ.trace → σ.status.get? n = some .done
  ig : ig σ.gvars
  cancel : ∀ id ∈ σ.cancelled, .cancel id ∈ σ.trace

/-- why an event happened -/
inductive Why (req : Facts → (a : Act) → a.Resp → Prop) (past : List Ev) (cancelled : CtxPath → Prop) : Ev → Prop
  | act {e : Ev} (a : Act) (x : a.Resp) (h : e ∈ a.evs x) (hr : req (· ∈ past) a x)
      (hs : ∀ c l s, a = .start c l s → e = .procStart l s → ¬ cancelled c)
      (hc : ∀ id, e ≠ .cancel id) : Why req past cancelled e
  | abort (t : Str) (i j : Nat) (ctx : CtxPath) (id : Nat) (hid : id ∈ ctx) (h : .cancel id ∈ past) :
      Why req past cancelled (.subAbort t i j)

/-- events by the program itself -/
def Own : Ev → Prop
  | .subAbort _ _ _ => False
  | .cancel _ => False
  | _ => True

theorem plaus_of_answers {σ : Shared} (hi : Inv ig σ) {a : Act} {x : a.Resp} (h : a.Answers σ x) :
    Plaus ig (· ∈ σ.trace) a x := by
  cases a <;> try trivial
  · rename_i n
    have h : x = σ.status.get? n := h
    cases x with
    | none => exact fun hc => hi.claimed n hc h.symm
    | some s =>
      cases s with
      | running =>
        intro hc
        have := hi.isDone n hc
        rw [this] at h; cases h
      | done => trivial
  · have h : x = σ.gvars := h
    show ig x
    rw [h]; exact hi.ig

theorem learn_of_answers {σ : Shared} (hi : Inv ig σ) {a : Act} {x : a.Resp} (h : a.Answers σ x) :
    ∃ L, Learn a x L ∧ ∀ e, L e → e ∈ σ.trace := by
  cases a <;> try exact ⟨_, rfl, fun e he => absurd he id⟩
  · rename_i n
    have h : x = σ.status.get? n := h
    cases x with
    | none => exact ⟨_, rfl, fun e he => absurd he id⟩
    | some s =>
      cases s with
      | running => exact ⟨_, rfl, fun e he => he ▸ hi.running n h.symm⟩
      | done => exact ⟨_, rfl, fun e he => he ▸ hi.done n h.symm⟩
  · rename_i n
    have h : x = σ.status.get? n := h
    refine ⟨_, rfl, ?_⟩
    rintro e ⟨h1, rfl⟩
    exact hi.done n (h ▸ h1)
  · rename_i c
    have h : x = σ.isCancelled c := h
    cases x with
    | false => exact ⟨fun _ => False, Or.inr ⟨rfl, rfl⟩, fun e he => absurd he id⟩
    | true =>
      obtain ⟨id, hid, hc⟩ : ∃ id ∈ c, id ∈ σ.cancelled := by
        have h : σ.isCancelled c = true := h.symm
        simpa [Shared.isCancelled] using h
      exact ⟨_, Or.inl ⟨rfl, id, hid, rfl⟩, fun e he => he ▸ hi.cancel id hc⟩

theorem inv_apply {σ : Shared} (hi : Inv ig σ) {a : Act} {x : a.Resp} (h : a.Answers σ x)
    (hb : BaseReq ig a) : Inv ig (a.apply σ x) := by
  have hsame : ∀ es : List Ev, (∀ e ∈ es, (∀ n, e ≠ .claimed n) ∧ (∀ n, e ≠ .done n)) →
      ∀ g, ig g → Inv ig { σ with gvars := g, trace := σ.trace ++ es } := by
    intro es hes g hg
    refine ⟨fun n hn => List.mem_append_left _ (hi.running n hn), fun n hn => List.mem_append_left _ (hi.done n hn),
      ?_, ?_, hg, fun id hid => List.mem_append_left _ (hi.cancel id hid)⟩
    · intro n hn
      rcases List.mem_append.mp hn with h | h
      · exact hi.claimed n h
      · exact absurd rfl ((hes _ h).1 n)
    · intro n hn
      rcases List.mem_append.mp hn with h | h
      · exact hi.isDone n h
      · exact absurd rfl ((hes _ h).2 n)
  have hsame' : ∀ es : List Ev, (∀ e ∈ es, (∀ n, e ≠ .claimed n) ∧ (∀ n, e ≠ .done n)) →
      Inv ig { σ with trace := σ.trace ++ es } := fun es hes => hsame es hes σ.gvars hi.ig
  cases a with
  | claim n =>
    have h : x = σ.status.get? n := h
    cases x with
    | some s => exact hsame' [] (by simp)
    | none =>
      show Inv ig { σ with status := σ.status.set n .running, trace := σ.trace ++ [.claimed n] }
      refine ⟨?_, ?_, ?_, ?_, hi.ig, fun id hid => List.mem_append_left _ (hi.cancel id hid)⟩
      · intro m hm
        simp only [GoMap.get?_set] at hm
        split at hm
        · rename_i hmn; subst hmn; simp
        · exact List.mem_append_left _ (hi.running m hm)
      · intro m hm
        simp only [GoMap.get?_set] at hm
        split at hm
        · cases hm
        · exact List.mem_append_left _ (hi.done m hm)
      · intro m hm
        simp only [GoMap.get?_set]
        split
        · simp
        · rename_i hmn
          rcases List.mem_append.mp hm with h | h
          · exact hi.claimed m h
          · simp at h; exact absurd h (by first | exact hmn | exact fun h => hmn h.symm)
      · intro m hm
        simp only [List.mem_append, List.mem_singleton, reduceCtorEq, or_false] at hm
        simp only [GoMap.get?_set]
        split
        · rename_i hmn
          subst hmn
          rw [hi.isDone _ hm] at h; cases h
        · exact hi.isDone m hm
  | setDone n =>
    show Inv ig { σ with status := σ.status.set n .done, trace := σ.trace ++ [.done n] }
    refine ⟨?_, ?_, ?_, ?_, hi.ig, fun id hid => List.mem_append_left _ (hi.cancel id hid)⟩
    · intro m hm
      simp only [GoMap.get?_set] at hm
      split at hm
      · cases hm
      · exact List.mem_append_left _ (hi.running m hm)
    · intro m hm
      simp only [GoMap.get?_set] at hm
      split at hm
      · rename_i hmn; subst hmn; simp
      · exact List.mem_append_left _ (hi.done m hm)
    · intro m hm
      simp only [List.mem_append, List.mem_singleton, reduceCtorEq, or_false] at hm
      simp only [GoMap.get?_set]
      split
      · simp
      · exact hi.claimed m hm
    · intro m hm
      simp only [GoMap.get?_set]
      split
      · rfl
      · rename_i hmn
        rcases List.mem_append.mp hm with h | h
        · exact hi.isDone m h
        · simp at h; exact absurd h (by first | exact hmn | exact fun h => hmn h.symm)
  | status n => exact hsame' [] (by simp)
  | snapshot => exact hsame' [] (by simp)
  | globals => exact hsame' [] (by simp)
  | setGlobal k v => exact hsame [] (by simp) _ (hb _ hi.ig)
  | cancelled c => exact hsame' [] (by simp)
  | newCtx =>
    have := hsame' [] (by simp)
    exact ⟨this.running, this.done, this.claimed, this.isDone, this.ig, this.cancel⟩
  | start c l s =>
    cases x with
    | true => exact hsame' [.procStart l s] (by simp)
    | false => exact hsame' [.procFail l] (by simp)
  | wait l => exact hsame' [.procEnd l x] (by simp)
  | prompt l p => exact hsame' [.answered l p.prompt x] (by simp)
  | tui => exact hsame' [.tuiStart x] (by simp)
  | emit e => exact hsame' [e] (by intro e' he'; rw [List.mem_singleton] at he'; subst he'; exact ⟨hb.1, hb.2.1⟩)
  | fuel => exact hsame' [] (by simp)

theorem cnt_const {n : Nat} {P : Tag → Bool} {t : Tag} : cnt P (fun _ : Fin n => t) = if P t then n else 0 := by
  unfold cnt
  by_cases h : P t = true
  · simp [h, List.countP_eq_length.mpr]
  · simp [h]

theorem blockOk_init (lim n : Nat) : BlockOk lim (n := n) { held := 0, wg := n, first := none, tag := fun _ => .init } where
  wg := by simp [cnt_const]
  held _ := by simp [cnt_const, Tag.holds]
  limit _ := Nat.zero_le _

theorem safe_step (hreq : ReqMono req) {p p' : Prog} {σ σ' : Shared} (h : Step p σ p' σ') {P : Post}
    (hP : Mono P) {O : Facts} (hs : Safe req ig p P (· ∈ σ.trace) O) (hi : Inv ig σ) :
    Inv ig σ' ∧ ∃ es O', σ'.trace = σ.trace ++ es ∧ es.length ≤ 1 ∧ σ'.cancelled = σ.cancelled ∧
      (∀ e ∈ es, Why req σ.trace (fun c => σ.isCancelled c = true) e) ∧
      (∀ e, O e → O' e) ∧ (∀ e ∈ es, Own e → O' e) ∧ Safe req ig p' P (· ∈ σ'.trace) O' := by
  induction h generalizing P O with
  | @act a k σ x ha =>
    obtain ⟨h0, h1, h2⟩ := hs x (plaus_of_answers hi ha)
    obtain ⟨L, hL, hL'⟩ := learn_of_answers hi ha
    have hlen : (a.evs x).length ≤ 1 := by
      cases a <;> try (simp [Act.evs]; done)
      · cases x <;> simp [Act.evs]
      · cases x <;> simp [Act.evs]
    have hcn : ∀ id, Ev.cancel id ∉ a.evs x := by
      intro id hid
      cases a <;> try (simp [Act.evs] at hid; done)
      · cases x <;> simp [Act.evs] at hid
      · cases x <;> simp [Act.evs] at hid
      · simp [Act.evs] at hid
        exact h0.2.2 id hid.symm
    have hcan : (a.apply σ x).cancelled = σ.cancelled := by
      cases a <;> try rfl
      cases x <;> rfl
    refine ⟨inv_apply hi ha h0, a.evs x, _, rfl, hlen, hcan, ?_, fun e he => Or.inl he,
      fun e he _ => Or.inr he, safe_mono hreq hP (h2 L hL) ?_⟩
    · intro e he
      refine .act a x he h1 ?_ (fun id h => hcn id (h ▸ he))
      intro c l s hal hel
      subst hal
      cases x with
      | true => have ha : _ → _ := ha; simp [ha rfl]
      | false => simp [Act.evs] at he; rw [he] at hel; cases hel
    · rintro e (he | he | he)
      · exact List.mem_append_left _ he
      · exact List.mem_append_right _ he
      · exact List.mem_append_left _ (hL' e he)
  | @acquire lim ctx t it n st ps k σ i h1 h2 =>
    obtain ⟨G, B, Oi, g1, g2, g3, g4, g5, g6, g7⟩ := hs
    refine ⟨hi, [], O, by simp, by simp, rfl, by simp, fun e he => he, by simp, G, B, Oi, g1, g2, ?_, g4, ?_, ?_, g7⟩
    · have hw := cnt_upd (fun t => t ≠ .done) st.tag i .running
      have hh := cnt_upd Tag.holds st.tag i .running
      simp only [h1, Tag.holds] at hw hh
      refine ⟨?_, ?_, ?_⟩
      · rw [g3.wg]; simpa using hw.symm
      · intro hl
        have := g3.held hl
        simp only [hl, if_false]
        simp at hh; omega
      · intro hl
        have := g3.limit hl
        simp only [hl, if_false, false_or] at h2 ⊢
        omega
    · intro j
      by_cases hj : j = i
      · subst hj; simp [upd, TagOk]
      · have := g5 j; simpa [upd, hj] using this
    · intro e he
      obtain ⟨j, ha, hb, hj⟩ := g6 e he
      have hji : j ≠ i := fun h => ha (h ▸ h1)
      exact ⟨j, by simpa [upd, hji] using ha, by simpa [upd, hji] using hb, hj⟩
  | @abort lim ctx t it n st ps k σ i h1 h2 h3 =>
    obtain ⟨G, B, Oi, g1, g2, g3, g4, g5, g6, g7⟩ := hs
    have hsub : ∀ e, e ∈ σ.trace → e ∈ σ.trace ++ [Ev.subAbort t it i] := fun e he => List.mem_append_left _ he
    obtain ⟨id, hid, hc⟩ : ∃ id ∈ ctx, id ∈ σ.cancelled := by
      simpa [Shared.isCancelled] using h3
    refine ⟨?_, [.subAbort t it i], O, rfl, by simp, rfl, ?_, fun e he => he, ?_, G, B, Oi, g1,
      fun j => safe_mono hreq (g1 j) (g2 j) hsub, ?_, g4, ?_, ?_, ?_⟩
    · refine ⟨fun n hn => hsub _ (hi.running n hn), fun n hn => hsub _ (hi.done n hn), ?_, ?_, hi.ig,
        fun id hid => hsub _ (hi.cancel id hid)⟩
      · intro n hn; exact hi.claimed n (by simpa using hn)
      · intro n hn; exact hi.isDone n (by simpa using hn)
    · intro e he
      rw [List.mem_singleton] at he; subst he
      exact .abort _ _ _ ctx id hid (hi.cancel id hc)
    · intro e he ho
      rw [List.mem_singleton] at he; subst he
      exact absurd ho (by simp [Own])
    · have hw := cnt_upd (fun t => t ≠ .done) st.tag i .done
      have hh := cnt_upd Tag.holds st.tag i .done
      simp only [h1, Tag.holds] at hw hh
      refine ⟨?_, ?_, g3.limit⟩
      · simp only [g3.wg]
        simp at hw
        simp only [ne_eq, decide_not] at hw ⊢
        omega
      · intro hl; rw [g3.held hl]; simpa using hh.symm
    · intro j
      by_cases hj : j = i
      · subst hj
        have h5 := g5 j
        rw [h1] at h5
        simp only [upd, if_true]
        exact Or.inr ⟨by simp, ⟨id, hid, hsub _ (hi.cancel id hc)⟩, h5⟩
      · have := tagOk_mono (g1 j) hsub (g5 j)
        simp only [upd, hj, if_false]
        exact this
    · intro e he
      obtain ⟨j, ha, hb, hj⟩ := g6 e he
      have hji : j ≠ i := fun h => ha (h ▸ h1)
      exact ⟨j, by simpa [upd, hji] using ha, by simpa [upd, hji] using hb, g1 j _ _ _ _ hsub hj⟩
    · intro F' Oi' first h8 h9 h10
      exact g7 F' Oi' first (fun e he => h8 e (hsub e he)) h9 h10
  | @child lim ctx t it n st ps k σ p' σ' i h1 h2 ih =>
    obtain ⟨G, B, Oi, g1, g2, g3, g4, g5, g6, g7⟩ := hs
    obtain ⟨f1, es, O', f2, f3, f4, f5, f6, f7, f8⟩ := ih (g1 i) (g2 i) hi
    have hsub : ∀ e, e ∈ σ.trace → e ∈ σ'.trace := fun e he => by rw [f2]; exact List.mem_append_left _ he
    refine ⟨f1, es, fun e => O e ∨ O' e, f2, f3, f4, f5, fun e he => Or.inl he, fun e he ho => Or.inr (f7 e he ho),
      G, B, fun j => if j = i then O' else Oi j, g1, ?_, g3, ?_, ?_, ?_, ?_⟩
    · intro j
      by_cases hj : j = i
      · subst hj; simpa [upd] using f8
      · simpa [upd, hj] using safe_mono hreq (g1 j) (g2 j) hsub
    · rintro e (he | he)
      · rcases g4 e he with h | ⟨j, h⟩
        · exact Or.inl h
        · refine Or.inr ⟨j, ?_⟩
          by_cases hj : j = i
          · subst hj; simpa using f6 e h
          · simpa [hj] using h
      · exact Or.inr ⟨i, by simpa using he⟩
    · intro j
      by_cases hj : j = i
      · subst hj; rw [h1]; trivial
      · simpa [hj] using tagOk_mono (g1 j) hsub (g5 j)
    · intro e he
      obtain ⟨j, ha, hb, hj⟩ := g6 e he
      have hji : j ≠ i := fun h => hb (h ▸ h1)
      exact ⟨j, ha, hb, by simpa [hji] using g1 j _ _ _ _ hsub hj⟩
    · intro F' Oi' first h8 h9 h10
      exact g7 F' Oi' first (fun e he => h8 e (hsub e he)) h9 h10
  | @finish lim ctx t it n st ps k σ r i h1 h2 =>
    obtain ⟨G, B, Oi, g1, g2, g3, g4, g5, g6, g7⟩ := hs
    have hg := g2 i
    rw [h2] at hg
    have hg : G i _ (Oi i) r := hg
    refine ⟨hi, [], O, by simp, by simp, rfl, by simp, fun e he => he, by simp, G, B, Oi, g1, g2, ?_, g4, ?_, ?_, g7⟩
    · have hw := cnt_upd (fun t => t ≠ .done) st.tag i .returned
      have hh := cnt_upd Tag.holds st.tag i .returned
      simp only [h1, Tag.holds] at hw hh
      refine ⟨?_, ?_, g3.limit⟩
      · rw [g3.wg]; simpa using hw.symm
      · intro hl; rw [g3.held hl]; simpa using hh.symm
    · intro j
      by_cases hj : j = i
      · subst hj
        simp only [upd, if_true]
        refine ⟨r, hg, ?_⟩
        intro hr
        unfold once
        cases st.first with
        | some e => rfl
        | none => exact hr
      · have h5 := g5 j
        have hmo : ∀ {O}, Ended (G j) (· ∈ σ.trace) O st.first → Ended (G j) (· ∈ σ.trace) O (once st.first r) := by
          rintro O ⟨r', a1, a2⟩
          refine ⟨r', a1, fun hr => ?_⟩
          have := a2 hr
          unfold once
          cases hf : st.first with
          | some e => rfl
          | none => rw [hf] at this; cases this
        simp only [upd, hj, if_false]
        generalize st.tag j = tg at h5
        cases tg with
        | init => exact h5
        | running => trivial
        | returned => exact hmo h5
        | released => exact hmo h5
        | done => exact h5.imp hmo id
    · intro e he
      unfold once at he
      cases hf : st.first with
      | some e' =>
        rw [hf] at he
        obtain ⟨j, ha, hb, hj⟩ := g6 e' hf
        have hji : j ≠ i := fun h => hb (h ▸ h1)
        cases he
        exact ⟨j, by simpa [upd, hji] using ha, by simpa [upd, hji] using hb, hj⟩
      | none =>
        rw [hf] at he
        have he : r = some e := he
        exact ⟨i, by simp [upd], by simp [upd], he ▸ hg⟩
  | @release lim ctx t it n st ps k σ i h1 =>
    obtain ⟨G, B, Oi, g1, g2, g3, g4, g5, g6, g7⟩ := hs
    refine ⟨hi, [], O, by simp, by simp, rfl, by simp, fun e he => he, by simp, G, B, Oi, g1, g2, ?_, g4, ?_, ?_, g7⟩
    · have hw := cnt_upd (fun t => t ≠ .done) st.tag i .released
      have hh := cnt_upd Tag.holds st.tag i .released
      simp only [h1, Tag.holds] at hw hh
      refine ⟨?_, ?_, ?_⟩
      · rw [g3.wg]; simpa using hw.symm
      · intro hl
        have := g3.held hl
        simp only [hl, if_false]
        simp at hh; omega
      · intro hl
        have := g3.limit hl
        simp only [hl, if_false]
        omega
    · intro j
      by_cases hj : j = i
      · subst hj
        have h5 := g5 j
        rw [h1] at h5
        simp only [upd, if_true]
        exact h5
      · simpa [upd, hj] using g5 j
    · intro e he
      obtain ⟨j, ha, hb, hj⟩ := g6 e he
      by_cases hji : j = i
      · exact ⟨j, by simp [upd, hji], by simp [upd, hji], hj⟩
      · exact ⟨j, by simpa [upd, hji] using ha, by simpa [upd, hji] using hb, hj⟩
  | @wgDone lim ctx t it n st ps k σ i h1 =>
    obtain ⟨G, B, Oi, g1, g2, g3, g4, g5, g6, g7⟩ := hs
    refine ⟨hi, [], O, by simp, by simp, rfl, by simp, fun e he => he, by simp, G, B, Oi, g1, g2, ?_, g4, ?_, ?_, g7⟩
    · have hw := cnt_upd (fun t => t ≠ .done) st.tag i .done
      have hh := cnt_upd Tag.holds st.tag i .done
      simp only [h1, Tag.holds] at hw hh
      refine ⟨?_, ?_, g3.limit⟩
      · simp only [g3.wg]
        simp at hw
        simp only [ne_eq, decide_not] at hw ⊢
        omega
      · intro hl; rw [g3.held hl]; simpa using hh.symm
    · intro j
      by_cases hj : j = i
      · subst hj
        have h5 := g5 j
        rw [h1] at h5
        simp only [upd, if_true]
        exact Or.inl h5
      · simpa [upd, hj] using g5 j
    · intro e he
      obtain ⟨j, ha, hb, hj⟩ := g6 e he
      by_cases hji : j = i
      · exact ⟨j, by simp [upd, hji], by simp [upd, hji], hj⟩
      · exact ⟨j, by simpa [upd, hji] using ha, by simpa [upd, hji] using hb, hj⟩
  | @join lim ctx t it n st ps k σ h1 =>
    obtain ⟨G, B, Oi, g1, g2, g3, g4, g5, g6, g7⟩ := hs
    have hd : ∀ i, st.tag i = .done := by
      intro i
      have := cnt_zero (g3.wg.symm.trans h1) i
      simpa using this
    refine ⟨hi, [], _, by simp, by simp, rfl, by simp, g4, by simp, g7 _ Oi st.first (fun _ h => h) ?_ ?_⟩
    · intro i
      have h5 := g5 i
      rw [hd i] at h5
      exact h5
    · intro e he
      obtain ⟨j, _, _, hj⟩ := g6 e he
      exact ⟨j, hj⟩

/-- every event of the trace has a reason, judged at the moment it happened -/
def Reasons (req : Facts → (a : Act) → a.Resp → Prop) (tr : List Ev) : Prop :=
  ∀ a e b, tr = a ++ e :: b →
    Why req a (fun c => ∃ id ∈ c, .cancel id ∈ a) e ∨ ∃ id, e = .cancel id

theorem reach_safe (hreq : ReqMono req) {p : Prog} {gvars : GoMap Str} (hg : ig gvars) {P : Post} (hP : Mono P)
    (h0 : Safe req ig p P (fun _ => False) (fun _ => False)) {s : State}
    (h : Reach ⟨p, Shared.init gvars⟩ s) :
    Inv ig s.sh ∧ (∀ id, .cancel id ∈ s.sh.trace → id ∈ s.sh.cancelled) ∧ Reasons req s.sh.trace ∧
      ∃ O : Facts, (∀ e ∈ s.sh.trace, Own e → O e) ∧ Safe req ig s.prog P (· ∈ s.sh.trace) O := by
  induction h with
  | refl =>
    refine ⟨⟨by simp [Shared.init, GoMap.get?], by simp [Shared.init, GoMap.get?], by simp [Shared.init],
      by simp [Shared.init], hg, by simp [Shared.init]⟩, by simp [Shared.init], ?_, fun _ => False, by simp [Shared.init],
      safe_mono hreq hP h0 (fun e he => he.elim)⟩
    intro a e b hab
    simp [Shared.init] at hab
  | @step t u _ hstep ih =>
    obtain ⟨i1, i2, i3, O, i4, i5⟩ := ih
    cases hstep with
    | @prog p σ p' σ' hst =>
      obtain ⟨j1, es, O', j2, j3, j4, j5, j6, j7, j8⟩ := safe_step hreq hst hP i5 i1
      have hcancel : ∀ id, Ev.cancel id ∉ es := by
        intro id hid
        cases j5 _ hid with
        | act a x h hr hs hc => exact hc id rfl
      refine ⟨j1, ?_, ?_, O', ?_, j8⟩
      · intro id hid
        simp only [j2, List.mem_append] at hid
        show id ∈ σ'.cancelled
        rw [j4]
        rcases hid with hid | hid
        · exact i2 id hid
        · exact absurd hid (hcancel id)
      · intro a e b hab
        simp only [j2] at hab
        match es, j3 with
        | [], _ => exact i3 a e b (by simpa using hab)
        | [e'], _ =>
          rcases List.eq_nil_or_concat b with rfl | ⟨b', x, rfl⟩
          · have := List.append_inj' hab rfl
            obtain ⟨rfl, h2⟩ := this
            simp only [List.cons.injEq, and_true] at h2
            subst h2
            left
            cases j5 _ (List.mem_singleton.mpr rfl) with
            | act a x h hr hs hc =>
              refine .act a x h hr ?_ hc
              rintro c l s ha he ⟨id, hid, hin⟩
              refine hs c l s ha he ?_
              simp only [Shared.isCancelled, List.any_eq_true, decide_eq_true_eq]
              exact ⟨id, hid, i2 id hin⟩
            | abort t i j ctx id hid h => exact .abort t i j ctx id hid h
          · have h3 : σ.trace ++ [e'] = (a ++ e :: b') ++ [x] := by simpa using hab
            have := (List.append_inj' h3 rfl).1
            exact i3 a e b' this
      · intro e he ho
        simp only [j2, List.mem_append] at he
        rcases he with he | he
        · exact j6 e (i4 e he ho)
        · exact j7 e he ho
    | @cancel p σ id hid =>
      have hsub : ∀ e, e ∈ σ.trace → e ∈ σ.trace ++ [Ev.cancel id] := fun e he => List.mem_append_left _ he
      refine ⟨⟨fun n hn => hsub _ (i1.running n hn), fun n hn => hsub _ (i1.done n hn), ?_, ?_, i1.ig, ?_⟩, ?_, ?_, O, ?_,
        safe_mono hreq hP i5 hsub⟩
      · intro n hn; exact i1.claimed n (by simpa using hn)
      · intro n hn; exact i1.isDone n (by simpa using hn)
      · intro id' h'
        simp only [List.mem_cons] at h'
        rcases h' with rfl | h'
        · simp
        · exact hsub _ (i1.cancel id' h')
      · intro id' h'
        simp only [List.mem_append, List.mem_singleton, Ev.cancel.injEq] at h'
        rcases h' with h' | rfl
        · exact List.mem_cons_of_mem _ (i2 id' h')
        · exact List.mem_cons_self
      · intro a e b hab
        simp only at hab
        rcases List.eq_nil_or_concat b with rfl | ⟨b', x, rfl⟩
        · obtain ⟨rfl, h2⟩ := List.append_inj' hab rfl
          simp only [List.cons.injEq, and_true] at h2
          exact Or.inr ⟨id, h2.symm⟩
        · have h3 : σ.trace ++ [Ev.cancel id] = (a ++ e :: b') ++ [x] := by simpa using hab
          exact i3 a e b' (List.append_inj' h3 rfl).1
      · intro e he ho
        simp only [List.mem_append, List.mem_singleton] at he
        rcases he with he | rfl
        · exact i4 e he ho
        · exact absurd ho (by simp [Own])

end
end Safe
end Bab
