import Verif.Model.Update
import Mathlib.Tactic.ByContra
/-
C52 and C53: the update cache and update notices.
-/

namespace Bab.Update

/-! ## C52 -/

namespace Spec

/-- a directory in which no call has begun; if there is a cache file, it is on stable storage. Left-over temporary files
are allowed. -/
structure Fresh (d : Disk) : Prop where
  pc : ∀ i, d.pc i = .idle
  past : d.past = []
  cache : ∀ k, d.cache = some k → k < d.next ∧ d.durable k = true

end Spec

open Spec

/-- the temporary name and the file of a running call -/
def Pc.loc : Pc → Option (Nat × Nat)
  | .idle | .finished => none
  | .writing n k _ | .written n k | .synced n k | .closed n k | .removed n k => some (n, k)

/-- what a running call has still to write -/
def Pc.rest : Pc → List UInt8
  | .writing _ _ r => r
  | _ => []

/-- the file of the call has been synced -/
def Pc.isSynced : Pc → Bool
  | .synced _ _ | .closed _ _ | .removed _ _ => true
  | _ => false

/-- a complete content: the first one or one of a call that has ended -/
def Whole (init : Option (List UInt8)) (data : Nat → List UInt8) (d : Disk) (b : List UInt8) : Prop :=
  init = some b ∨ ∃ i, d.pc i = .finished ∧ b = data i

/-- the invariant of the directory, with names that do not repeat -/
structure Inv (init : Option (List UInt8)) (data : Nat → List UInt8) (d : Disk) : Prop where
  /-- every former and present cache file is complete and on stable storage -/
  shown : ∀ k, some k ∈ d.cache :: d.past → k < d.next ∧ d.durable k = true ∧ Whole init data d (d.content k)
  /-- a running call owns its file, which has been written up to what is left -/
  own : ∀ i n k, (d.pc i).loc = some (n, k) →
    d.used n = true ∧ (d.temp n = none ∨ d.temp n = some k) ∧ k < d.next ∧ some k ∉ d.cache :: d.past ∧
    d.content k ++ (d.pc i).rest = data i ∧ ((d.pc i).isSynced = true → d.durable k = true)
  /-- two running calls have different names and files -/
  apart : ∀ i j n k n' k', i ≠ j → (d.pc i).loc = some (n, k) → (d.pc j).loc = some (n', k') → n ≠ n' ∧ k ≠ k'

theorem put_self {α : Type} (f : Nat → α) (i : Nat) (v : α) : put f i v i = v := by simp [put]

theorem put_ne {α : Type} (f : Nat → α) {i j : Nat} (v : α) (h : j ≠ i) : put f i v j = f j := by simp [put, h]

theorem whole_put {init data} {d : Disk} {b : List UInt8} {i : Nat} {p : Pc} (h : Whole init data d b)
    (hi : d.pc i ≠ .finished ∨ p = .finished) {d' : Disk} (hpc : d'.pc = put d.pc i p) : Whole init data d' b := by
  rcases h with h | ⟨j, hj, hb⟩
  · exact .inl h
  · refine .inr ⟨j, ?_, hb⟩
    rw [hpc]
    by_cases e : j = i
    · subst e
      rw [put_self]
      rcases hi with hi | hi
      · exact absurd hj hi
      · exact hi
    · rw [put_ne _ _ e]; exact hj

/-- a step of call `i` that leaves the cache file alone and changes at most its own file and its own name -/
theorem inv_own {init data} {d d' : Disk} {i n k : Nat} {p : Pc} (h : Inv init data d) (hloc : (d.pc i).loc = some (n, k))
    (hpc : d'.pc = put d.pc i p) (hp : p.loc = some (n, k) ∨ p = .finished)
    (hcache : d'.cache = d.cache) (hpast : d'.past = d.past) (hnext : d'.next = d.next) (hused : d'.used = d.used)
    (htemp : ∀ x, d'.temp x = d.temp x ∨ d'.temp x = none)
    (hcont : ∀ x, x ≠ k → d'.content x = d.content x) (hdur : ∀ x, d.durable x = true → d'.durable x = true)
    (hdata : p.loc = some (n, k) → d'.content k ++ p.rest = data i ∧ (p.isSynced = true → d'.durable k = true)) :
    Inv init data d' := by
  have hfin : d.pc i ≠ .finished := by intro e; rw [e] at hloc; cases hloc
  have ho := h.own i n k hloc
  refine ⟨?_, ?_, ?_⟩
  · intro x hx
    rw [hcache, hpast] at hx
    obtain ⟨h1, h2, h3⟩ := h.shown x hx
    have hxk : x ≠ k := by rintro rfl; exact ho.2.2.2.1 hx
    exact ⟨by rw [hnext]; exact h1, hdur _ h2, by rw [hcont x hxk]; exact whole_put h3 (.inl hfin) hpc⟩
  · intro j n' k' hj
    rw [hpc] at hj ⊢
    by_cases e : j = i
    · subst e
      rw [put_self] at hj ⊢
      rcases hp with hp | rfl
      · rw [hp] at hj
        obtain ⟨rfl, rfl⟩ := Prod.mk.inj (Option.some.inj hj)
        refine ⟨by rw [hused]; exact ho.1, ?_, by rw [hnext]; exact ho.2.2.1, by rw [hcache, hpast]; exact ho.2.2.2.1, hdata hp⟩
        rcases htemp n with e | e
        · rw [e]; exact ho.2.1
        · exact .inl e
      · cases hj
    · rw [put_ne _ _ e] at hj ⊢
      have ho' := h.own j n' k' hj
      have hk := (h.apart j i n' k' n k e hj hloc).2
      refine ⟨by rw [hused]; exact ho'.1, ?_, by rw [hnext]; exact ho'.2.2.1, by rw [hcache, hpast]; exact ho'.2.2.2.1, ?_, ?_⟩
      · rcases htemp n' with e | e
        · rw [e]; exact ho'.2.1
        · exact .inl e
      · rw [hcont _ hk]; exact ho'.2.2.2.2.1
      · intro hs; exact hdur _ (ho'.2.2.2.2.2 hs)
  · intro a b n1 k1 n2 k2 hab ha hb
    rw [hpc] at ha hb
    have key : ∀ j m l, (put d.pc i p j).loc = some (m, l) → (d.pc j).loc = some (m, l) := by
      intro j m l hj
      by_cases e : j = i
      · subst e
        rw [put_self] at hj
        rcases hp with hp | rfl
        · rw [hp] at hj; rw [hloc]; exact hj
        · cases hj
      · rwa [put_ne _ _ e] at hj
    exact h.apart a b n1 k1 n2 k2 hab (key _ _ _ ha) (key _ _ _ hb)

theorem inv_step {os init data} {d d' : Disk} (h : Inv init data d) (hs : Step os true data d d') : Inv init data d' := by
  cases hs with
  | create i name hidle hnone hfresh =>
    have hu := hfresh rfl
    have hlt : ∀ x, x < d.next → x ≠ d.next := fun x hx => by omega
    refine ⟨?_, ?_, ?_⟩
    · intro x hx
      obtain ⟨h1, h2, h3⟩ := h.shown x hx
      dsimp only
      rw [put_ne _ _ (hlt x h1), put_ne _ _ (hlt x h1)]
      exact ⟨by omega, h2, whole_put h3 (.inl (by rw [hidle]; simp)) rfl⟩
    · intro j n k hj
      dsimp only at hj ⊢
      by_cases e : j = i
      · subst e
        rw [put_self] at hj ⊢
        obtain ⟨rfl, rfl⟩ := Prod.mk.inj (Option.some.inj hj)
        refine ⟨put_self .., .inr (put_self ..), by omega, ?_, ?_, ?_⟩
        · intro hm; exact absurd (h.shown _ hm).1 (by omega)
        · rw [put_self]; rfl
        · intro hc; cases hc
      · rw [put_ne _ _ e] at hj ⊢
        obtain ⟨o1, o2, o3, o4, o5, o6⟩ := h.own j n k hj
        have hn : n ≠ name := by rintro rfl; rw [hu] at o1; cases o1
        rw [put_ne _ _ hn, put_ne _ _ hn, put_ne _ _ (hlt k o3), put_ne _ _ (hlt k o3)]
        exact ⟨o1, o2, by omega, o4, o5, o6⟩
    · intro a b n1 k1 n2 k2 hab ha hb
      dsimp only at ha hb
      by_cases ea : a = i
      · subst ea
        rw [put_self] at ha
        rw [put_ne _ _ (fun e => hab e.symm)] at hb
        obtain ⟨rfl, rfl⟩ := Prod.mk.inj (Option.some.inj ha)
        obtain ⟨o1, _, o3, _⟩ := h.own b n2 k2 hb
        exact ⟨(by rintro rfl; rw [hu] at o1; cases o1), by omega⟩
      · rw [put_ne _ _ ea] at ha
        by_cases eb : b = i
        · subst eb
          rw [put_self] at hb
          obtain ⟨rfl, rfl⟩ := Prod.mk.inj (Option.some.inj hb)
          obtain ⟨o1, _, o3, _⟩ := h.own a n1 k1 ha
          exact ⟨(by rintro rfl; rw [hu] at o1; cases o1), by omega⟩
        · rw [put_ne _ _ eb] at hb
          exact h.apart a b n1 k1 n2 k2 hab ha hb
  | write i name ino chunk rest hp =>
    have hloc : (d.pc i).loc = some (name, ino) := by rw [hp]; rfl
    have ho := (h.own i name ino hloc).2.2.2.2.1
    refine inv_own h hloc rfl (.inl rfl) rfl rfl rfl rfl (fun _ => .inl rfl) (fun x hx => put_ne _ _ hx) (fun _ hx => hx) ?_
    intro _
    refine ⟨?_, fun hc => by cases hc⟩
    rw [hp] at ho
    show put d.content ino (d.content ino ++ chunk) ino ++ rest = data i
    rw [put_self, List.append_assoc]
    exact ho
  | wrote i name ino hp =>
    have hloc : (d.pc i).loc = some (name, ino) := by rw [hp]; rfl
    have ho := (h.own i name ino hloc).2.2.2.2.1
    refine inv_own h hloc rfl (.inl rfl) rfl rfl rfl rfl (fun _ => .inl rfl) (fun _ _ => rfl) (fun _ hx => hx) ?_
    intro _
    rw [hp] at ho
    exact ⟨ho, fun hc => by cases hc⟩
  | sync i name ino hp =>
    have hloc : (d.pc i).loc = some (name, ino) := by rw [hp]; rfl
    have ho := (h.own i name ino hloc).2.2.2.2.1
    refine inv_own h hloc rfl (.inl rfl) rfl rfl rfl rfl (fun _ => .inl rfl) (fun _ _ => rfl) ?_ ?_
    · intro x hx
      show put d.durable ino true x = true
      by_cases e : x = ino
      · rw [e, put_self]
      · rw [put_ne _ _ e]; exact hx
    · intro _
      rw [hp] at ho
      exact ⟨ho, fun _ => put_self ..⟩
  | close i name ino hp =>
    have hloc : (d.pc i).loc = some (name, ino) := by rw [hp]; rfl
    have ho := (h.own i name ino hloc).2.2.2.2
    refine inv_own h hloc rfl (.inl rfl) rfl rfl rfl rfl (fun _ => .inl rfl) (fun _ _ => rfl) (fun _ hx => hx) ?_
    intro _
    rw [hp] at ho
    exact ⟨ho.1, fun _ => ho.2 rfl⟩
  | remove i name ino ok _ hp =>
    have hloc : (d.pc i).loc = some (name, ino) := by rw [hp]; rfl
    have ho := h.own i name ino hloc
    have hsub : ∀ k, some k ∈ (if ok then none else d.cache) :: d.cache :: d.past → some k ∈ d.cache :: d.past := by
      intro k hk
      rcases List.mem_cons.mp hk with e | hk
      · cases ok with
        | true => cases e
        | false => rw [e]; simp
      · exact hk
    refine ⟨?_, ?_, ?_⟩
    · intro k hk
      obtain ⟨h1, h2, h3⟩ := h.shown k (hsub k hk)
      exact ⟨h1, h2, whole_put h3 (.inl (by rw [hp]; simp)) rfl⟩
    · intro j n k hj
      dsimp only at hj ⊢
      by_cases e : j = i
      · subst e
        rw [put_self] at hj ⊢
        obtain ⟨rfl, rfl⟩ := Prod.mk.inj (Option.some.inj hj)
        rw [hp] at ho
        exact ⟨ho.1, ho.2.1, ho.2.2.1, fun hk => ho.2.2.2.1 (hsub _ hk), ho.2.2.2.2.1, fun _ => ho.2.2.2.2.2 rfl⟩
      · rw [put_ne _ _ e] at hj ⊢
        obtain ⟨o1, o2, o3, o4, o5, o6⟩ := h.own j n k hj
        exact ⟨o1, o2, o3, fun hk => o4 (hsub _ hk), o5, o6⟩
    · intro a b n1 k1 n2 k2 hab ha hb
      have key : ∀ j m l, (put d.pc i (.removed name ino) j).loc = some (m, l) → (d.pc j).loc = some (m, l) := by
        intro j m l hj
        by_cases e : j = i
        · subst e
          rw [put_self] at hj
          rw [hloc]; exact hj
        · rwa [put_ne _ _ e] at hj
      exact h.apart a b n1 k1 n2 k2 hab (key _ _ _ ha) (key _ _ _ hb)
  | rename i name ino ino' hp ht =>
    have hloc : (d.pc i).loc = some (name, ino) := by rw [hp]; cases os <;> rfl
    have hrest : (d.pc i).rest = [] := by rw [hp]; cases os <;> rfl
    have hsync : (d.pc i).isSynced = true := by rw [hp]; cases os <;> rfl
    obtain ⟨o1, o2, o3, o4, o5, o6⟩ := h.own i name ino hloc
    have hfin : d.pc i ≠ .finished := by intro e; rw [e] at hloc; cases hloc
    have hino : ino' = ino := by
      rcases o2 with e | e
      · rw [e] at ht; cases ht
      · rw [e] at ht; exact (Option.some.inj ht).symm
    subst hino
    rw [hrest, List.append_nil] at o5
    refine ⟨?_, ?_, ?_⟩
    · intro k hk
      rcases List.mem_cons.mp hk with e | hk
      · obtain rfl := Option.some.inj e
        exact ⟨o3, o6 hsync, .inr ⟨i, put_self .., o5⟩⟩
      · obtain ⟨h1, h2, h3⟩ := h.shown k hk
        exact ⟨h1, h2, whole_put h3 (.inl hfin) rfl⟩
    · intro j n k hj
      dsimp only at hj ⊢
      by_cases e : j = i
      · subst e
        rw [put_self] at hj
        cases hj
      · rw [put_ne _ _ e] at hj ⊢
        obtain ⟨p1, p2, p3, p4, p5, p6⟩ := h.own j n k hj
        obtain ⟨hn, hk⟩ := h.apart j i n k name ino' e hj hloc
        rw [put_ne _ _ hn]
        refine ⟨p1, p2, p3, ?_, p5, p6⟩
        intro hm
        rcases List.mem_cons.mp hm with e | hm
        · exact hk (Option.some.inj e)
        · exact p4 hm
    · intro a b n1 k1 n2 k2 hab ha hb
      have key : ∀ j m l, (put d.pc i .finished j).loc = some (m, l) → (d.pc j).loc = some (m, l) := by
        intro j m l hj
        by_cases e : j = i
        · subst e
          rw [put_self] at hj
          cases hj
        · rwa [put_ne _ _ e] at hj
      exact h.apart a b n1 k1 n2 k2 hab (key _ _ _ ha) (key _ _ _ hb)
  | giveUp i hidle =>
    have key : ∀ j m l, (put d.pc i .finished j).loc = some (m, l) → j ≠ i ∧ (d.pc j).loc = some (m, l) := by
      intro j m l hj
      by_cases e : j = i
      · subst e
        rw [put_self] at hj
        cases hj
      · rw [put_ne _ _ e] at hj; exact ⟨e, hj⟩
    refine ⟨?_, ?_, ?_⟩
    · intro k hk
      obtain ⟨h1, h2, h3⟩ := h.shown k hk
      exact ⟨h1, h2, whole_put h3 (.inr rfl) rfl⟩
    · intro j n k hj
      obtain ⟨e, hj'⟩ := key j n k hj
      have := h.own j n k hj'
      dsimp only
      rw [put_ne _ _ e]
      exact this
    · intro a b n1 k1 n2 k2 hab ha hb
      exact h.apart a b n1 k1 n2 k2 hab (key _ _ _ ha).2 (key _ _ _ hb).2
  | fail i name ino rm hp =>
    have hloc : (d.pc i).loc = some (name, ino) := by
      rcases hp with e | e | e | e | ⟨_, e⟩ <;> rw [e] <;> rfl
    refine inv_own h hloc rfl (.inr rfl) rfl rfl rfl rfl ?_ (fun _ _ => rfl) (fun _ hx => hx) (fun hc => by cases hc)
    intro x
    cases rm with
    | false => exact .inl rfl
    | true =>
      show put d.temp name none x = _ ∨ put d.temp name none x = none
      by_cases e : x = name
      · right; rw [e, put_self]
      · left; rw [put_ne _ _ e]
  | cleanup name =>
    refine ⟨h.shown, ?_, h.apart⟩
    intro j n k hj
    obtain ⟨o1, o2, o3, o4, o5, o6⟩ := h.own j n k hj
    refine ⟨o1, ?_, o3, o4, o5, o6⟩
    dsimp only
    by_cases e : n = name
    · left; rw [e, put_self]
    · rw [put_ne _ _ e]; exact o2
  | kill i =>
    have key : ∀ j m l, (put d.pc i .finished j).loc = some (m, l) → j ≠ i ∧ (d.pc j).loc = some (m, l) := by
      intro j m l hj
      by_cases e : j = i
      · subst e
        rw [put_self] at hj
        cases hj
      · rw [put_ne _ _ e] at hj; exact ⟨e, hj⟩
    refine ⟨?_, ?_, ?_⟩
    · intro k hk
      obtain ⟨h1, h2, h3⟩ := h.shown k hk
      exact ⟨h1, h2, whole_put h3 (.inr rfl) rfl⟩
    · intro j n k hj
      obtain ⟨e, hj'⟩ := key j n k hj
      have := h.own j n k hj'
      dsimp only
      rw [put_ne _ _ e]
      exact this
    · intro a b n1 k1 n2 k2 hab ha hb
      exact h.apart a b n1 k1 n2 k2 hab (key _ _ _ ha).2 (key _ _ _ hb).2
  | crash _ hpc hkeep hnext hused hcache hpast htemp =>
    have hnone : ∀ i, (d'.pc i).loc = none := by
      intro i
      rcases hpc i with ⟨e, _⟩ | e <;> rw [e] <;> rfl
    refine ⟨?_, ?_, ?_⟩
    · intro k hk
      have hk' : some k ∈ d.cache :: d.past := by
        rcases List.mem_cons.mp hk with e | hk
        · rw [e]; exact hcache
        · exact hpast _ hk
      obtain ⟨h1, h2, h3⟩ := h.shown k hk'
      obtain ⟨e1, e2⟩ := hkeep k h2
      refine ⟨by rw [hnext]; exact h1, e2, ?_⟩
      rw [e1]
      rcases h3 with h3 | ⟨i, hi, hb⟩
      · exact .inl h3
      · refine .inr ⟨i, ?_, hb⟩
        rcases hpc i with ⟨_, e⟩ | e
        · rw [hi] at e; cases e
        · exact e
    · intro i n k hi
      rw [hnone] at hi; cases hi
    · intro i j n k n' k' _ hi
      rw [hnone] at hi; cases hi

theorem inv_fresh {data} {d : Disk} (h : Fresh d) : Inv d.read data d := by
  have hnone : ∀ i, (d.pc i).loc = none := by intro i; rw [h.pc i]; rfl
  refine ⟨?_, ?_, ?_⟩
  · intro k hk
    rw [h.past, List.mem_singleton] at hk
    obtain ⟨h1, h2⟩ := h.cache k hk.symm
    refine ⟨h1, h2, .inl ?_⟩
    rw [Disk.read, ← hk]; rfl
  · intro i n k hi; rw [hnone] at hi; cases hi
  · intro i j n k n' k' _ hi; rw [hnone] at hi; cases hi

theorem inv_steps {os init data} {d d' : Disk} (h : Inv init data d) (hs : Steps os true data d d') : Inv init data d' := by
  induction hs with
  | refl => exact h
  | step _ hs ih => exact inv_step ih hs

/-- C52: at every moment, whatever calls run, fail, die or are interrupted by a crash, the cache file is absent, or has the
content it had at first, or has the complete content of a call that has ended. -/
theorem C52_never_partial {os : Os} {data : Nat → List UInt8} {d₀ d : Disk} (h0 : Fresh d₀) (hs : Steps os true data d₀ d)
    {b : List UInt8} (hb : d.read = some b) : d₀.read = some b ∨ ∃ i, d.pc i = .finished ∧ b = data i := by
  have h := inv_steps (inv_fresh (data := data) h0) hs
  rw [Disk.read, Option.map_eq_some_iff] at hb
  obtain ⟨k, hk, rfl⟩ := hb
  exact (h.shown k (by rw [hk]; simp)).2.2

/-- a file that is complete, on stable storage and belongs to no running call -/
def Settled (d : Disk) (k : Nat) : Prop := d.durable k = true ∧ k < d.next ∧ ∀ i n, (d.pc i).loc ≠ some (n, k)

theorem settled_of_shown {init data} {d : Disk} (h : Inv init data d) {k : Nat} (hk : some k ∈ d.cache :: d.past) : Settled d k := by
  obtain ⟨h1, h2, _⟩ := h.shown k hk
  exact ⟨h2, h1, fun i n e => (h.own i n k e).2.2.2.1 hk⟩

theorem settled_step {os data} {d d' : Disk} (hs : Step os true data d d') {k : Nat} (hk : Settled d k) :
    d'.content k = d.content k ∧ Settled d' k := by
  obtain ⟨h1, h2, h3⟩ := hk
  have hpc : ∀ (i : Nat) (p : Pc), (∀ n, p.loc ≠ some (n, k)) → ∀ j n, (put d.pc i p j).loc ≠ some (n, k) := by
    intro i p hp j n
    by_cases e : j = i
    · rw [e, put_self]; exact hp n
    · rw [put_ne _ _ e]; exact h3 j n
  have same : ∀ (i : Nat) (p : Pc), p.loc = (d.pc i).loc ∨ p = .finished → ∀ n, p.loc ≠ some (n, k) := by
    rintro i p (e | rfl) n
    · rw [e]; exact h3 i n
    · intro h; cases h
  cases hs with
  | create i name _ _ _ =>
    refine ⟨put_ne _ _ (by omega), ?_, by show k < d.next + 1; omega, hpc i _ ?_⟩
    · show put d.durable d.next false k = true
      rw [put_ne _ _ (by omega)]; exact h1
    · intro n e
      have := (Prod.mk.inj (Option.some.inj e)).2
      omega
  | write i name ino chunk rest hp =>
    refine ⟨put_ne _ _ ?_, h1, h2, hpc i _ (same i _ (.inl (by rw [hp]; rfl)))⟩
    rintro rfl
    exact h3 i name (by rw [hp]; rfl)
  | wrote i name ino hp => exact ⟨rfl, h1, h2, hpc i _ (same i _ (.inl (by rw [hp]; rfl)))⟩
  | sync i name ino hp =>
    refine ⟨rfl, ?_, h2, hpc i _ (same i _ (.inl (by rw [hp]; rfl)))⟩
    show put d.durable ino true k = true
    by_cases e : k = ino
    · rw [e, put_self]
    · rw [put_ne _ _ e]; exact h1
  | close i name ino hp => exact ⟨rfl, h1, h2, hpc i _ (same i _ (.inl (by rw [hp]; rfl)))⟩
  | remove i name ino ok _ hp => exact ⟨rfl, h1, h2, hpc i _ (same i _ (.inl (by rw [hp]; rfl)))⟩
  | rename i => exact ⟨rfl, h1, h2, hpc i _ (same i _ (.inr rfl))⟩
  | giveUp i => exact ⟨rfl, h1, h2, hpc i _ (same i _ (.inr rfl))⟩
  | fail i => exact ⟨rfl, h1, h2, hpc i _ (same i _ (.inr rfl))⟩
  | cleanup => exact ⟨rfl, h1, h2, h3⟩
  | kill i => exact ⟨rfl, h1, h2, hpc i _ (same i _ (.inr rfl))⟩
  | crash _ hpc hkeep hnext hused hcache hpast htemp =>
    refine ⟨(hkeep k h1).1, (hkeep k h1).2, by rw [hnext]; exact h2, ?_⟩
    intro i n e
    rcases hpc i with ⟨e', _⟩ | e' <;> rw [e'] at e <;> cases e

/-- C52: the file a reader has opened as the cache file never changes, even while other calls replace it: reading it in
several pieces gives one complete content. -/
theorem C52_reader {os : Os} {data : Nat → List UInt8} {d₀ d d' : Disk} (h0 : Fresh d₀) (hs : Steps os true data d₀ d)
    {k : Nat} (hk : d.cache = some k) (hs' : Steps os true data d d') : d'.content k = d.content k := by
  have h := settled_of_shown (inv_steps (inv_fresh (data := data) h0) hs) (k := k) (by rw [hk]; simp)
  suffices d'.content k = d.content k ∧ Settled d' k from this.1
  induction hs' with
  | refl => exact ⟨rfl, h⟩
  | step _ hs ih =>
    obtain ⟨e, h'⟩ := settled_step hs ih.2
    exact ⟨e.trans ih.1, h'⟩

/-- C52: except on Windows, a cache file that exists never disappears. -/
theorem C52_present {data : Nat → List UInt8} {fresh : Bool} {d₀ d : Disk} (h0 : Fresh d₀) (hs : Steps .unix fresh data d₀ d)
    (hc : d₀.cache ≠ none) : d.cache ≠ none := by
  suffices ∀ x ∈ d.cache :: d.past, x ≠ none from this _ (by simp)
  induction hs with
  | refl =>
    intro x hx
    rw [h0.past, List.mem_singleton] at hx
    rw [hx]; exact hc
  | step _ hs ih =>
    cases hs with
    | create | write | wrote | sync | close | giveUp | fail | cleanup | kill => exact ih
    | remove _ _ _ _ e => cases e
    | rename =>
      intro x hx
      rcases List.mem_cons.mp hx with e | hx
      · rw [e]; simp
      · exact ih x hx
    | crash _ hpc hkeep hnext hused hcache hpast htemp =>
      intro x hx
      rcases List.mem_cons.mp hx with e | hx
      · rw [e]; exact ih _ hcache
      · exact ih _ (hpast x hx)

/-- C52: what a call renames to the cache file is its own complete text. -/
theorem C52_publishes_own {os : Os} {data : Nat → List UInt8} {d₀ d : Disk} (h0 : Fresh d₀) (hs : Steps os true data d₀ d)
    {i name ino k : Nat} (hp : d.pc i = .closed name ino ∨ d.pc i = .removed name ino) (ht : d.temp name = some k) :
    d.content k = data i := by
  have h := inv_steps (inv_fresh (data := data) h0) hs
  have hloc : (d.pc i).loc = some (name, ino) := by rcases hp with e | e <;> rw [e] <;> rfl
  have hrest : (d.pc i).rest = [] := by rcases hp with e | e <;> rw [e] <;> rfl
  obtain ⟨_, o2, _, _, o5, _⟩ := h.own i name ino hloc
  rw [hrest, List.append_nil] at o5
  rcases o2 with e | e
  · rw [e] at ht; cases ht
  · rw [e] at ht
    obtain rfl := Option.some.inj ht
    exact o5

/-- two calls, the second text has two bytes -/
def sampleData : Nat → List UInt8
  | 0 => [1]
  | _ => [2, 3]

/-- no cache file, no call has begun -/
def emptyDisk : Disk := ⟨fun _ => [], fun _ => false, 0, fun _ => none, fun _ => false, none, [], fun _ => .idle⟩

theorem emptyDisk_fresh : Fresh emptyDisk := ⟨fun _ => rfl, rfl, fun k h => by cases h⟩

/-- C52, what it rests on: were a random temporary name used again while a stopped call whose file was removed as abandoned
still has that name, the stopped call would publish the half-written file of another call. -/
theorem C52_reused_name : ∃ d, Steps .unix false sampleData emptyDisk d ∧ d.read = some [2] := by
  refine ⟨_, .step (.step (.step (.step (.step (.step (.step (.step (.step (.refl _)
    (.create _ 0 0 rfl rfl (fun h => by cases h)))
    (.write _ 0 0 0 [1] [] rfl)) (.wrote _ 0 0 0 rfl)) (.sync _ 0 0 0 rfl)) (.close _ 0 0 0 rfl)) (.cleanup _ 0))
    (.create _ 1 0 rfl rfl (fun h => by cases h)))
    (.write _ 1 0 1 [2] [3] rfl))
    (.rename _ 0 0 0 1 rfl rfl), ?_⟩
  rfl

/-- two overlapping calls, then a crash: the first text survives -/
example : ∃ d, Steps .unix true sampleData emptyDisk d ∧ d.read = some [1] ∧ d.pc 1 = .finished := by
  refine ⟨_, .step (.step (.step (.step (.step (.step (.step (.step (.step (.refl _)
    (.create _ 0 0 rfl rfl (fun _ => rfl)))
    (.write _ 0 0 0 [1] [] rfl)) (.wrote _ 0 0 0 rfl)) (.create _ 1 1 rfl rfl (fun _ => rfl)))
    (.sync _ 0 0 0 rfl)) (.close _ 0 0 0 rfl))
    (.write _ 1 1 1 [2] [3] rfl))
    (.rename _ 0 0 0 0 rfl rfl)) (.kill _ 1), ?_, ?_⟩ <;> rfl

/-! ## C53 -/

namespace Spec

/-- update checks are not switched off -/
def Enabled (env : Str → Str) (current : Str) : Prop :=
  env "BAB_NO_UPDATE_CHECK".toList ≠ "1".toList ∧ env "CI".toList ≠ "true".toList ∧ env "CI".toList ≠ "1".toList ∧
  current ≠ "dev".toList ∧ current ≠ []

/-- `latest` is a version, `current` is one, and the first is greater; a leading `v` does not count -/
def Newer {V : Type} (parse : Str → Option V) (gt : V → V → Bool) (latest current : Str) : Prop :=
  ∃ l c a b, (latest = 'v' :: l ∨ latest = l ∧ l.head? ≠ some 'v') ∧ (current = 'v' :: c ∨ current = c ∧ c.head? ≠ some 'v') ∧
    l ≠ [] ∧ c ≠ [] ∧ parse l = some a ∧ parse c = some b ∧ gt a b = true

/-- the cache file can be read, names a version and is not from the future -/
def Usable (decode : List UInt8 → Option Cached) (file : Option (List UInt8)) (now : Int) (c : Cached) : Prop :=
  ∃ bytes, file = some bytes ∧ decode bytes = some c ∧ c.latest ≠ [] ∧ c.checkedAt ≤ now

end Spec

theorem shouldSkip_iff (env : Str → Str) (current : Str) : shouldSkip env current = false ↔ Enabled env current := by
  unfold shouldSkip Enabled
  by_cases h1 : env "BAB_NO_UPDATE_CHECK".toList = "1".toList
  · rw [if_pos h1]; exact ⟨fun h => (by cases h), fun h => absurd h1 h.1⟩
  · rw [if_neg h1]
    by_cases h2 : (env "CI".toList = "true".toList || env "CI".toList = "1".toList) = true
    · rw [if_pos h2]
      rw [Bool.or_eq_true, decide_eq_true_eq, decide_eq_true_eq] at h2
      refine ⟨fun h => (by cases h), ?_⟩
      rintro ⟨_, h3, h4, _⟩
      exact absurd h2 (by simp only [not_or]; exact ⟨h3, h4⟩)
    · rw [if_neg h2]
      rw [Bool.or_eq_true, decide_eq_true_eq, decide_eq_true_eq, not_or] at h2
      by_cases h3 : (current = "dev".toList || current = []) = true
      · rw [if_pos h3]
        rw [Bool.or_eq_true, decide_eq_true_eq, decide_eq_true_eq] at h3
        refine ⟨fun h => (by cases h), ?_⟩
        rintro ⟨_, _, _, h4, h5⟩
        exact absurd h3 (by simp only [not_or]; exact ⟨h4, h5⟩)
      · rw [if_neg h3]
        rw [Bool.or_eq_true, decide_eq_true_eq, decide_eq_true_eq, not_or] at h3
        exact ⟨fun _ => ⟨h1, h2.1, h2.2, h3.1, h3.2⟩, fun _ => rfl⟩

theorem trimV_iff (x y : Str) : trimV x = y ↔ (x = 'v' :: y ∨ x = y ∧ y.head? ≠ some 'v') := by
  by_cases h : ∃ r, x = 'v' :: r
  · obtain ⟨r, rfl⟩ := h
    simp only [trimV, List.cons.injEq, true_and]
    constructor
    · exact .inl
    · rintro (h | ⟨h, h'⟩)
      · exact h
      · rw [← h] at h'; simp at h'
  · have e : trimV x = x := by
      unfold trimV
      split
      · next r => exact absurd ⟨r, rfl⟩ h
      · rfl
    rw [e]
    constructor
    · rintro rfl
      refine .inr ⟨rfl, ?_⟩
      intro hh
      cases x with
      | nil => cases hh
      | cons a r => simp only [List.head?_cons, Option.some.injEq] at hh; exact h ⟨r, by rw [hh]⟩
    · rintro (e | ⟨e, _⟩)
      · exact absurd ⟨y, e⟩ h
      · exact e

theorem isNewer_iff {V : Type} (parse : Str → Option V) (gt : V → V → Bool) (latest current : Str) :
    isNewer parse gt latest current = true ↔ Newer parse gt latest current := by
  unfold Newer
  simp only [← trimV_iff]
  unfold isNewer
  by_cases h : (trimV latest = [] || trimV current = []) = true
  · rw [if_pos h]
    rw [Bool.or_eq_true, decide_eq_true_eq, decide_eq_true_eq] at h
    refine ⟨fun h => (by cases h), ?_⟩
    rintro ⟨l, c, a, b, rfl, rfl, hl, hc, _⟩
    rcases h with h | h
    · exact absurd h hl
    · exact absurd h hc
  · rw [if_neg h]
    rw [Bool.or_eq_true, decide_eq_true_eq, decide_eq_true_eq, not_or] at h
    constructor
    · intro hg
      split at hg
      · cases hg
      · next a ha =>
        split at hg
        · cases hg
        · next b hb => exact ⟨_, _, a, b, rfl, rfl, h.1, h.2, ha, hb, hg⟩
    · rintro ⟨l, c, a, b, rfl, rfl, _, _, ha, hb, hg⟩
      rw [ha]
      dsimp only
      rw [hb]
      exact hg

theorem loadCache_iff (decode : List UInt8 → Option Cached) (file : Option (List UInt8)) (now : Int) (c : Cached) :
    loadCache decode file now = some c ↔ Usable decode file now c := by
  unfold loadCache Usable
  cases file with
  | none => exact ⟨fun h => (by cases h), fun ⟨_, h, _⟩ => (by cases h)⟩
  | some bytes =>
    dsimp only
    cases hd : decode bytes with
    | none =>
      refine ⟨fun h => (by cases h), ?_⟩
      rintro ⟨_, rfl', h, _⟩
      obtain rfl := Option.some.inj rfl'
      rw [hd] at h; cases h
    | some c' =>
      dsimp only
      have inj : ∀ b, some bytes = some b → decode b = some c → c' = c := by
        intro b hb h
        obtain rfl := Option.some.inj hb
        rw [hd] at h; exact Option.some.inj h
      by_cases h1 : c'.latest = []
      · rw [if_pos h1]
        refine ⟨fun h => (by cases h), ?_⟩
        rintro ⟨b, hb, h, h2, _⟩
        obtain rfl := inj b hb h
        exact absurd h1 h2
      · rw [if_neg h1]
        by_cases h2 : c'.checkedAt > now
        · rw [if_pos h2]
          refine ⟨fun h => (by cases h), ?_⟩
          rintro ⟨b, hb, h, _, h3⟩
          obtain rfl := inj b hb h
          omega
        · rw [if_neg h2]
          constructor
          · intro h
            obtain rfl := Option.some.inj h
            exact ⟨bytes, rfl, hd, h1, by omega⟩
          · rintro ⟨b, hb, h, _, _⟩
            rw [inj b hb h]

/-- C53: a notice is shown exactly if checks are enabled, the cache file is usable, and its version is newer than the
running one; it names these two versions. -/
theorem C53_notice {V : Type} (env : Str → Str) (decode : List UInt8 → Option Cached) (parse : Str → Option V)
    (gt : V → V → Bool) (file : Option (List UInt8)) (now : Int) (current : Str) (n : Info) :
    checkCached env decode parse gt file now current = some n ↔
      Enabled env current ∧ n.current = current ∧
      ∃ c, Usable decode file now c ∧ n.latest = c.latest ∧ Newer parse gt c.latest current := by
  unfold checkCached
  by_cases h : shouldSkip env current = true
  · rw [if_pos h]
    refine ⟨fun h => (by cases h), ?_⟩
    rintro ⟨h1, _⟩
    rw [(shouldSkip_iff env current).mpr h1] at h; cases h
  · rw [if_neg h]
    have he := (shouldSkip_iff env current).mp (Bool.eq_false_iff.mpr h)
    constructor
    · intro hn
      split at hn
      · cases hn
      · next c hc =>
        split at hn
        · next hnew =>
          obtain rfl := Option.some.inj hn
          exact ⟨he, rfl, c, (loadCache_iff ..).mp hc, rfl, (isNewer_iff ..).mp hnew⟩
        · cases hn
    · rintro ⟨_, h1, c, hc, h2, h3⟩
      rw [(loadCache_iff ..).mpr hc]
      dsimp only
      rw [if_pos ((isNewer_iff ..).mpr h3)]
      obtain ⟨n1, n2⟩ := n
      dsimp only at h1 h2
      rw [h1, h2]

/-- C53: if the order of versions is irreflexive, the version that is running is never announced, with or without `v`. -/
theorem C53_not_itself {V : Type} (env : Str → Str) (decode : List UInt8 → Option Cached) (parse : Str → Option V)
    (gt : V → V → Bool) (hgt : ∀ v, gt v v = false) (file : Option (List UInt8)) (now : Int) (v : Str)
    (current : Str) (n : Info) (h : checkCached env decode parse gt file now current = some n)
    (hv : current = v ∨ current = 'v' :: v) (hv' : v.head? ≠ some 'v') : n.latest ≠ v ∧ n.latest ≠ 'v' :: v := by
  obtain ⟨_, _, c, _, h1, h2⟩ := (C53_notice ..).mp h
  unfold Newer at h2
  simp only [← trimV_iff] at h2
  obtain ⟨l, r, a, b, e1, e2, _, _, ha, hb, hg⟩ := h2
  have hc : trimV current = v := (trimV_iff _ _).mpr (hv.elim (fun e => .inr ⟨e, hv'⟩) .inl)
  rw [← h1] at e1
  have key : trimV n.latest ≠ v := by
    intro e
    rw [e] at e1
    rw [hc] at e2
    subst e1 e2
    rw [ha] at hb
    obtain rfl := Option.some.inj hb
    rw [hgt] at hg; cases hg
  exact ⟨fun e => key ((trimV_iff _ _).mpr (.inr ⟨e, hv'⟩)), fun e => key ((trimV_iff _ _).mpr (.inl e))⟩

/-- C53: what a refresh saves names a version, is dated now, and comes from the server: a successful answer, or the cached
version if the server says it has not changed. Nothing is saved after a failed request. -/
theorem C53_refresh (a : Answer) (cached : Option Cached) (now : Int) (c : Cached) :
    refreshCache a cached now = some c ↔
      c.checkedAt = now ∧ c.latest ≠ [] ∧
      ((∃ tag, a = .response 200 (some c.latest) tag ∧ c.etag = tag) ∨
       (∃ old tag etag, a = .response 304 tag etag ∧ cached = some old ∧ c.latest = old.latest ∧ c.etag = old.etag)) := by
  unfold refreshCache fetchLatest
  obtain ⟨ct, cl, ce⟩ := c
  cases a with
  | failed =>
    refine ⟨fun h => (by cases h), ?_⟩
    rintro ⟨_, _, ⟨_, h, _⟩ | ⟨_, _, _, h, _⟩⟩ <;> cases h
  | response status tag etag =>
    dsimp only
    by_cases h304 : status = 304
    · subst h304
      rw [if_pos rfl]
      cases cached with
      | none =>
        dsimp only
        rw [if_pos (by decide)]
        refine ⟨fun h => (by cases h), ?_⟩
        rintro ⟨_, _, ⟨_, h, _⟩ | ⟨_, _, _, _, h, _⟩⟩ <;> cases h
      | some old =>
        dsimp only
        by_cases h0 : old.latest = []
        · rw [if_pos h0]
          refine ⟨fun h => (by cases h), ?_⟩
          rintro ⟨_, h1, ⟨_, h, _⟩ | ⟨o, t, e, _, h, h2, _⟩⟩
          · cases h
          · obtain rfl := Option.some.inj h
            exact absurd (h2.trans h0) h1
        · rw [if_neg h0]
          constructor
          · intro h
            obtain ⟨rfl, rfl, rfl⟩ := Cached.mk.inj (Option.some.inj h)
            exact ⟨rfl, h0, .inr ⟨old, tag, etag, rfl, rfl, rfl, rfl⟩⟩
          · rintro ⟨h1, h2, ⟨_, h, _⟩ | ⟨o, t, e, _, h, h3, h4⟩⟩
            · cases h
            · obtain rfl := Option.some.inj h
              subst h1 h3 h4; rfl
    · rw [if_neg h304]
      dsimp only
      by_cases h200 : status = 200
      · subst h200
        rw [if_neg (by simp)]
        cases tag with
        | none =>
          refine ⟨fun h => (by cases h), ?_⟩
          rintro ⟨_, _, ⟨_, h, _⟩ | ⟨_, _, _, h, _⟩⟩ <;> cases h
        | some t =>
          dsimp only
          by_cases h0 : t = []
          · rw [if_pos h0]
            refine ⟨fun h => (by cases h), ?_⟩
            rintro ⟨_, h1, ⟨_, h, _⟩ | ⟨_, _, _, h, _⟩⟩
            · cases h; exact absurd h0 h1
            · cases h
          · rw [if_neg h0]
            dsimp only
            rw [if_neg h0]
            constructor
            · intro h
              obtain ⟨rfl, rfl, rfl⟩ := Cached.mk.inj (Option.some.inj h)
              exact ⟨rfl, h0, .inl ⟨_, rfl, rfl⟩⟩
            · rintro ⟨rfl, h1, ⟨_, h, rfl⟩ | ⟨_, _, _, h, _⟩⟩
              · cases h; rfl
              · cases h
      · rw [if_pos h200]
        refine ⟨fun h => (by cases h), ?_⟩
        rintro ⟨_, _, ⟨_, h, _⟩ | ⟨_, _, _, h, _⟩⟩
        · cases h; exact absurd rfl h200
        · cases h; exact absurd rfl h304

/-- C53: a background request is made exactly if checks are enabled and there is no usable cache file less than 24 hours
old. -/
theorem C53_request (env : Str → Str) (decode : List UInt8 → Option Cached) (file : Option (List UInt8)) (now : Int)
    (current : Str) :
    startRefresh env decode file now current ≠ none ↔
      Enabled env current ∧ ∀ c, Usable decode file now c → now - c.checkedAt ≥ 24 * 3600 * 1000000000 := by
  unfold startRefresh
  by_cases h : shouldSkip env current = true
  · rw [if_pos h]
    refine ⟨fun h => absurd rfl h, ?_⟩
    rintro ⟨h1, _⟩
    rw [(shouldSkip_iff env current).mpr h1] at h; cases h
  · rw [if_neg h]
    have he := (shouldSkip_iff env current).mp (Bool.eq_false_iff.mpr h)
    dsimp only
    cases hl : loadCache decode file now with
    | none =>
      simp only [decide_true, Bool.true_or, if_true]
      refine ⟨fun _ => ⟨he, fun c hc => ?_⟩, fun _ => by simp⟩
      rw [(loadCache_iff ..).mpr hc] at hl; cases hl
    | some c =>
      have hu : ∀ c', Usable decode file now c' → c' = c := by
        intro c' hc'
        rw [(loadCache_iff ..).mpr hc'] at hl; exact Option.some.inj hl
      by_cases hv : isValid (some c) now = true
      · rw [if_neg (by rw [hv]; simp)]
        refine ⟨fun h => absurd rfl h, ?_⟩
        rintro ⟨_, h1⟩
        have := h1 c ((loadCache_iff ..).mp hl)
        have hv' := of_decide_eq_true (p := now - c.checkedAt < cacheDuration) hv
        unfold cacheDuration at hv'
        omega
      · rw [if_pos (by rw [Bool.eq_false_iff.mpr hv]; simp)]
        refine ⟨fun _ => ⟨he, fun c' hc' => ?_⟩, fun _ => by simp⟩
        rw [hu c' hc']
        have hv' : ¬ (now - c.checkedAt < cacheDuration) := fun h => hv (decide_eq_true h)
        unfold cacheDuration at hv'
        omega

/-- C53: `bab update` too announces only a newer version, and only from a successful answer. -/
theorem C53_force {V : Type} (env : Str → Str) (parse : Str → Option V) (gt : V → V → Bool) (a : Answer) (now : Int)
    (current : Str) (n : Info) :
    (forceCheck env parse gt a now current).2 = some n ↔
      Enabled env current ∧ n.current = current ∧ (∃ etag, a = .response 200 (some n.latest) etag) ∧
      Newer parse gt n.latest current := by
  unfold forceCheck
  by_cases h : shouldSkip env current = true
  · rw [if_pos h]
    refine ⟨fun h => (by cases h), ?_⟩
    rintro ⟨h1, _⟩
    rw [(shouldSkip_iff env current).mpr h1] at h; cases h
  · rw [if_neg h]
    have he := (shouldSkip_iff env current).mp (Bool.eq_false_iff.mpr h)
    cases a with
    | failed =>
      refine ⟨fun h => (by cases h), ?_⟩
      rintro ⟨_, _, ⟨_, h⟩, _⟩; cases h
    | response status tag etag =>
      unfold fetchLatest
      have e : (if status = 304 then (none : Option Cached) else none) = none := by split <;> rfl
      simp only [e]
      by_cases h200 : status = 200
      · subst h200
        rw [if_neg (by simp)]
        cases tag with
        | none =>
          refine ⟨fun h => (by cases h), ?_⟩
          rintro ⟨_, _, ⟨_, h⟩, _⟩; cases h
        | some t =>
          dsimp only
          by_cases h0 : t = []
          · rw [if_pos h0]
            refine ⟨fun h => (by cases h), ?_⟩
            rintro ⟨_, _, ⟨_, h⟩, h2⟩
            cases h
            unfold Newer at h2
            simp only [← trimV_iff] at h2
            obtain ⟨l, _, _, _, e1, _, hl, _⟩ := h2
            rw [h0] at e1
            exact absurd e1.symm hl
          · rw [if_neg h0]
            dsimp only
            obtain ⟨n1, n2⟩ := n
            by_cases hnew : isNewer parse gt t current = true
            · rw [if_pos hnew]
              constructor
              · intro h
                obtain ⟨rfl, rfl⟩ := Info.mk.inj (Option.some.inj h)
                exact ⟨he, rfl, ⟨etag, rfl⟩, (isNewer_iff ..).mp hnew⟩
              · rintro ⟨_, rfl, ⟨_, h⟩, _⟩
                cases h; rfl
            · rw [if_neg hnew]
              refine ⟨fun h => (by cases h), ?_⟩
              rintro ⟨_, _, ⟨_, h⟩, h2⟩
              cases h
              exact absurd ((isNewer_iff ..).mpr h2) hnew
      · rw [if_pos h200]
        refine ⟨fun h => (by cases h), ?_⟩
        rintro ⟨_, _, ⟨_, h⟩, _⟩
        cases h; exact absurd rfl h200

/-- versions are numbers of digits here: v3 is announced to 2, not to v3 -/
example :
    let parse : Str → Option Nat := fun x => match x with | [c] => if c.isDigit then some (c.toNat - 48) else none | _ => none
    let decode : List UInt8 → Option Cached := fun _ => some ⟨5, "v3".toList, []⟩
    checkCached (fun _ => []) decode parse (fun a b => decide (a > b)) (some []) 7 "2".toList = some ⟨"2".toList, "v3".toList⟩ ∧
    checkCached (fun _ => []) decode parse (fun a b => decide (a > b)) (some []) 7 "v3".toList = none ∧
    checkCached (fun _ => []) decode parse (fun a b => decide (a > b)) (some []) 4 "2".toList = none := by
  decide +kernel

end Bab.Update
