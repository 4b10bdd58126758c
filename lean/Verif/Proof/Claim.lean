import Verif.Proof.Safe
import Verif.Spec.Cycle
/-
A program logic for the claim table: which task states a program knows, because nobody else changes them. A task
that is done stays done, so that any number of programs may know it; any other state is known to at most one of the
programs that run at the same time.
-/

namespace Bab.Claim
open Bab Spec

/-- the known entries of the claim table -/
abbrev Kn := Str → Option (Option Status)
abbrev Post := Kn → Option Err → Prop

/-- the entry of `n` becomes `s` -/
def put (kn : Kn) (n : Str) (s : Option Status) : Kn := fun x => if x = n then some s else kn x

/-- what an action needs to know -/
def Need (kn : Kn) : Act → Prop
  | .claim n => kn n = some none ∨ kn n = some (some .done)
  | .setDone n => kn n = some (some .running)
  | .status n => kn n ≠ none
  | .snapshot => False
  | .emit e => EvAcyclic e
  | _ => True

/-- the answers that fit the knowledge -/
def Fits (kn : Kn) : (a : Act) → a.Resp → Prop
  | .claim n, x => kn n = some x
  | .status n, x => kn n = some x
  | .prompt _ _, x => ∀ e, x = .error e → e = .canceled ∨ ∃ reason, e = .prompt reason
  | _, _ => True

/-- the knowledge after an action -/
def next (kn : Kn) : (a : Act) → a.Resp → Kn
  | .claim n, none => put kn n (some .running)
  | .setDone n, _ => put kn n (some .done)
  | _, _ => kn

/-- known by both only if done -/
def Compat (a b : Kn) : Prop := ∀ n s t, a n = some s → b n = some t → s = some .done ∧ t = some .done

/-- `kn` is what `rest` and the parts know together -/
def Join {n : Nat} (rest : Kn) (parts : Fin n → Kn) (kn : Kn) : Prop :=
  ∀ x s, kn x = some s ↔ rest x = some s ∨ ∃ i, parts i x = some s

/-- the goroutine has returned, and a failure of it is recorded -/
def Ended (G : Post) (kn : Kn) (first : Option Err) : Prop := ∃ r, G kn r ∧ (r.isSome → first.isSome)

/-- what holds of a goroutine; `wp` says that its program is fine -/
def TagOk (G : Post) (k0 kn : Kn) (wp : Prop) (first : Option Err) : Tag → Prop
  | .init => kn = k0 ∧ wp
  | .running => wp
  | .returned => Ended G kn first
  | .released => Ended G kn first
  | .done => Ended G kn first ∨ kn = k0

/-- from here on the program only performs actions whose needs are met, and `Q` holds when it returns -/
def Wp : Prog → Kn → Post → Prop
  | .ret r, kn, Q => Q kn r
  | .act a k, kn, Q => Need kn a ∧ ∀ x, Fits kn a x → Wp (k x) (next kn a x) Q
  | .par _ _ _ _ n st ps k, kn, Q =>
      ∃ (rest : Kn) (k0 parts : Fin n → Kn) (G : Fin n → Post),
        Join rest parts kn ∧ (∀ i, Compat rest (parts i)) ∧ (∀ i j, i ≠ j → Compat (parts i) (parts j)) ∧
        st.wg = Safe.cnt (fun t => t ≠ .done) st.tag ∧
        (∀ i, TagOk (G i) (k0 i) (parts i) (Wp (ps i) (parts i) (G i)) st.first (st.tag i)) ∧
        (∀ i kn r, G i kn r → Acyclic r) ∧ Acyclic st.first ∧
        ∀ (kn' : Kn) (parts' : Fin n → Kn) (first : Option Err), Join rest parts' kn' → Acyclic first →
          (∀ i, Ended (G i) (parts' i) first ∨ parts' i = k0 i) → Wp (k first) kn' Q

theorem wp_mono {p : Prog} {kn : Kn} {Q Q' : Post} (h : Wp p kn Q) (hQ : ∀ kn r, Q kn r → Q' kn r) : Wp p kn Q' := by
  induction p generalizing kn with
  | ret r => exact hQ _ _ h
  | act a k ih => exact ⟨h.1, fun x hx => ih x (h.2 x hx)⟩
  | par lim ctx t it n st ps k ih1 ih2 =>
    obtain ⟨rest, k0, parts, G, h1, h2, h3, h4, h5, h6, h7, h8⟩ := h
    exact ⟨rest, k0, parts, G, h1, h2, h3, h4, h5, h6, h7, fun kn' parts' first a b c => ih2 first (h8 kn' parts' first a b c)⟩

theorem wp_bind {p : Prog} {f : Option Err → Prog} {kn : Kn} {Q Q' : Post} (h : Wp p kn Q')
    (hf : ∀ kn r, Q' kn r → Wp (f r) kn Q) : Wp (p.bind f) kn Q := by
  induction p generalizing kn with
  | ret r => exact hf _ _ h
  | act a k ih => exact ⟨h.1, fun x hx => ih x (h.2 x hx)⟩
  | par lim ctx t it n st ps k ih1 ih2 =>
    obtain ⟨rest, k0, parts, G, h1, h2, h3, h4, h5, h6, h7, h8⟩ := h
    exact ⟨rest, k0, parts, G, h1, h2, h3, h4, h5, h6, h7, fun kn' parts' first a b c => ih2 first (h8 kn' parts' first a b c)⟩

/-! ## soundness -/

/-- the knowledge is right -/
def Interp (kn : Kn) (σ : Shared) : Prop := ∀ n s, kn n = some s → σ.status.get? n = s

/-- how knowledge develops: nothing is forgotten or found out, and done tasks stay done -/
def Evolves (kn kn' : Kn) : Prop := ∀ n, (kn n = none → kn' n = none) ∧ (kn n = some (some .done) → kn' n = some (some .done))

theorem evolves_refl (kn : Kn) : Evolves kn kn := fun _ => ⟨id, id⟩

theorem compat_symm {a b : Kn} (h : Compat a b) : Compat b a := fun n s t h1 h2 => (h n t s h2 h1).symm

theorem compat_evolves {a b b' : Kn} (h : Compat a b) (he : Evolves b b') : Compat a b' := by
  intro n s t h1 h2
  cases hb : b n with
  | none => rw [(he n).1 hb] at h2; cases h2
  | some u =>
    obtain ⟨e1, e2⟩ := h n s u h1 hb
    subst e2
    rw [(he n).2 hb] at h2
    exact ⟨e1, (Option.some.inj h2).symm⟩

theorem interp_frame_put {a kn : Kn} {σ σ' : Shared} {n : Str} {v : Status} (hc : Compat a kn) (hk : ∃ s, kn n = some s ∧ s ≠ some .done)
    (hσ : σ'.status = σ.status.set n v) (ha : Interp a σ) : Interp a σ' := by
  intro x s hx
  rw [hσ]
  by_cases hxn : n = x
  · subst hxn
    obtain ⟨t, ht, hne⟩ := hk
    exact absurd (hc _ _ _ hx ht).2 hne
  · rw [GoMap.get?_set_ne _ _ hxn]; exact ha x s hx

theorem interp_put {kn : Kn} {σ σ' : Shared} {n : Str} {v : Status} (hi : Interp kn σ) (hσ : σ'.status = σ.status.set n v) :
    Interp (put kn n (some v)) σ' := by
  intro x s hx
  rw [hσ]
  unfold put at hx
  by_cases hxn : x = n
  · subst hxn
    rw [if_pos rfl] at hx
    rw [GoMap.get?_set_self]; exact Option.some.inj hx
  · rw [if_neg hxn] at hx
    rw [GoMap.get?_set_ne _ _ (Ne.symm hxn)]; exact hi x s hx

theorem evolves_put {kn : Kn} {n : Str} {v : Option Status} (h : ∃ s, kn n = some s ∧ s ≠ some .done) : Evolves kn (put kn n v) := by
  intro x
  unfold put
  obtain ⟨s, hs, hne⟩ := h
  by_cases hx : x = n
  · subst hx
    refine ⟨fun h0 => (by rw [hs] at h0; cases h0), fun h0 => ?_⟩
    rw [hs] at h0
    exact absurd (Option.some.inj h0) hne
  · rw [if_neg hx]; exact ⟨id, id⟩

theorem join_interp {n : Nat} {rest : Kn} {parts : Fin n → Kn} {kn : Kn} {σ : Shared} (hj : Join rest parts kn) (hi : Interp kn σ) :
    Interp rest σ ∧ ∀ i, Interp (parts i) σ :=
  ⟨fun x s h => hi x s ((hj x s).mpr (Or.inl h)), fun i x s h => hi x s ((hj x s).mpr (Or.inr ⟨i, h⟩))⟩

/-- put the parts together again -/
theorem join_exists {n : Nat} {rest : Kn} {parts : Fin n → Kn} {σ : Shared} (hr : Interp rest σ) (hp : ∀ i, Interp (parts i) σ) :
    ∃ kn, Join rest parts kn ∧ Interp kn σ := by
  classical
  refine ⟨fun x => if rest x ≠ none ∨ ∃ i, parts i x ≠ none then some (σ.status.get? x) else none, ?_, ?_⟩
  · intro x s
    constructor
    · intro h
      dsimp only at h
      split at h
      · next hk =>
        have hs := Option.some.inj h
        rcases hk with hk | ⟨i, hk⟩
        · obtain ⟨t, ht⟩ := Option.ne_none_iff_exists'.mp hk
          left; rw [ht, ← hs, hr x t ht]
        · obtain ⟨t, ht⟩ := Option.ne_none_iff_exists'.mp hk
          right; exact ⟨i, by rw [ht, ← hs, hp i x t ht]⟩
      · cases h
    · rintro (h | ⟨i, h⟩)
      · dsimp only
        rw [if_pos (Or.inl (by rw [h]; simp)), hr x s h]
      · dsimp only
        rw [if_pos (Or.inr ⟨i, by rw [h]; simp⟩), hp i x s h]
  · intro x s h
    dsimp only at h
    split at h
    · exact Option.some.inj h
    · cases h

/-- what a step does to the knowledge -/
structure Moves (kn kn' : Kn) (σ σ' : Shared) : Prop where
  interp : Interp kn' σ'
  evolves : Evolves kn kn'
  frame : ∀ a, Compat a kn → Interp a σ → Interp a σ'
  clean : ∃ es, σ'.trace = σ.trace ++ es ∧ ∀ e ∈ es, EvAcyclic e

theorem moves_same {kn : Kn} {σ : Shared} (hi : Interp kn σ) : Moves kn kn σ σ :=
  ⟨hi, evolves_refl kn, fun _ _ h => h, [], by simp, by simp⟩

theorem moves_status {kn : Kn} {σ σ' : Shared} (hi : Interp kn σ) (hs : σ'.status = σ.status)
    (hc : ∃ es, σ'.trace = σ.trace ++ es ∧ ∀ e ∈ es, EvAcyclic e) : Moves kn kn σ σ' :=
  ⟨fun x s h => by rw [hs]; exact hi x s h, evolves_refl kn, fun a _ h x s hx => by rw [hs]; exact h x s hx, hc⟩

theorem ended_first {G : Post} {kn : Kn} {first : Option Err} {r : Option Err} (h : Ended G kn first) : Ended G kn (once first r) := by
  obtain ⟨r', h1, h2⟩ := h
  refine ⟨r', h1, fun hr => ?_⟩
  have := h2 hr
  unfold once
  cases first with
  | some e => rfl
  | none => cases this

theorem act_moves {a : Act} {x : a.Resp} {kn : Kn} {σ : Shared} (hi : Interp kn σ) (hn : Need kn a) (ha : a.Answers σ x) :
    Fits kn a x ∧ Moves kn (next kn a x) σ (a.apply σ x) := by
  have hkeep : (a.effect σ x).status = σ.status → next kn a x = kn → (∀ e ∈ a.evs x, EvAcyclic e) → Moves kn (next kn a x) σ (a.apply σ x) := by
    intro h1 h2 h3
    rw [h2]
    exact moves_status hi h1 ⟨_, rfl, h3⟩
  cases a with
  | claim n =>
    have ha : x = σ.status.get? n := ha
    have hfit : kn n = some x := by
      rcases hn with h | h
      · rw [h, ha, hi n _ h]; rfl
      · rw [h, ha, hi n _ h]; rfl
    refine ⟨hfit, ?_⟩
    cases x with
    | some s => exact hkeep rfl rfl (fun e he => by simp [Act.evs] at he)
    | none =>
      exact ⟨interp_put hi rfl, evolves_put ⟨none, hfit, by simp⟩, fun a hc h => interp_frame_put hc ⟨none, hfit, by simp⟩ rfl h,
        [.claimed n], rfl, fun e he => by rw [List.mem_singleton] at he; subst he; trivial⟩
  | setDone n =>
    have hk : ∃ s, kn n = some s ∧ s ≠ some .done := ⟨some .running, hn, by simp⟩
    exact ⟨trivial, interp_put hi rfl, evolves_put hk, fun a hc h => interp_frame_put hc hk rfl h,
      [.done n], rfl, fun e he => by rw [List.mem_singleton] at he; subst he; trivial⟩
  | status n =>
    have ha : x = σ.status.get? n := ha
    have hfit : kn n = some x := by
      obtain ⟨t, ht⟩ := Option.ne_none_iff_exists'.mp (show kn n ≠ none from hn)
      rw [ht, ha, hi n _ ht]; rfl
    exact ⟨hfit, hkeep rfl rfl (fun e he => by simp [Act.evs] at he)⟩
  | snapshot => exact hn.elim
  | globals => exact ⟨trivial, hkeep rfl rfl (fun e he => by simp [Act.evs] at he)⟩
  | setGlobal k v => exact ⟨trivial, hkeep rfl rfl (fun e he => by simp [Act.evs] at he)⟩
  | cancelled c => exact ⟨trivial, hkeep rfl rfl (fun e he => by simp [Act.evs] at he)⟩
  | newCtx => exact ⟨trivial, hkeep rfl rfl (fun e he => by simp [Act.evs] at he)⟩
  | start c l s =>
    refine ⟨trivial, hkeep rfl rfl ?_⟩
    intro e he
    cases x <;> · rw [Act.evs, List.mem_singleton] at he; subst he; trivial
  | wait l =>
    refine ⟨trivial, hkeep rfl rfl ?_⟩
    intro e he
    rw [Act.evs, List.mem_singleton] at he; subst he; trivial
  | prompt l p =>
    refine ⟨ha, hkeep rfl rfl ?_⟩
    intro e he
    rw [Act.evs, List.mem_singleton] at he; subst he
    cases x with
    | ok s => trivial
    | error e => rcases ha e rfl with rfl | ⟨_, rfl⟩ <;> trivial
  | tui =>
    refine ⟨trivial, hkeep rfl rfl ?_⟩
    intro e he
    rw [Act.evs, List.mem_singleton] at he; subst he; trivial
  | emit e =>
    refine ⟨trivial, hkeep rfl rfl ?_⟩
    intro e' he
    rw [Act.evs, List.mem_singleton] at he; subst he; exact hn
  | fuel => exact ⟨trivial, hkeep rfl rfl (fun e he => by simp [Act.evs] at he)⟩

theorem wp_step {p p' : Prog} {σ σ' : Shared} (h : Step p σ p' σ') {kn : Kn} {Q : Post} (hw : Wp p kn Q) (hi : Interp kn σ) :
    ∃ kn', Wp p' kn' Q ∧ Moves kn kn' σ σ' := by
  induction h generalizing kn Q with
  | @act a k σ x ha =>
    obtain ⟨h1, h2⟩ := act_moves hi hw.1 ha
    exact ⟨_, hw.2 x h1, h2⟩
  | @acquire lim ctx t it n st ps k σ i g1 g2 =>
    obtain ⟨rest, k0, parts, G, h1, h2, h3, h4, h5, h6, h7, h8⟩ := hw
    refine ⟨kn, ⟨rest, k0, parts, G, h1, h2, h3, ?_, ?_, h6, h7, h8⟩, moves_same hi⟩
    · have hw := Safe.cnt_upd (fun t => t ≠ .done) st.tag i .running
      simp only [g1] at hw
      dsimp only
      rw [h4]; simpa using hw.symm
    · intro j
      dsimp only
      by_cases hj : j = i
      · subst hj
        have := h5 j
        rw [g1] at this
        simp only [upd, if_true]
        exact this.2
      · simpa [upd, hj] using h5 j
  | @abort lim ctx t it n st ps k σ i g1 g2 g3 =>
    obtain ⟨rest, k0, parts, G, h1, h2, h3, h4, h5, h6, h7, h8⟩ := hw
    refine ⟨kn, ⟨rest, k0, parts, G, h1, h2, h3, ?_, ?_, h6, h7, h8⟩, moves_status hi rfl ⟨_, rfl, ?_⟩⟩
    · have hw := Safe.cnt_upd (fun t => t ≠ .done) st.tag i .done
      simp only [g1] at hw
      dsimp only
      rw [h4]
      simp at hw
      simp only [ne_eq, decide_not] at hw ⊢
      omega
    · intro j
      dsimp only
      by_cases hj : j = i
      · subst hj
        have := h5 j
        rw [g1] at this
        simp only [upd, if_true]
        exact Or.inr this.1
      · simpa [upd, hj] using h5 j
    · intro e he
      rw [List.mem_singleton] at he; subst he; trivial
  | @child lim ctx t it n st ps k σ p' σ' i g1 g2 ih =>
    obtain ⟨rest, k0, parts, G, h1, h2, h3, h4, h5, h6, h7, h8⟩ := hw
    obtain ⟨hir, hip⟩ := join_interp h1 hi
    have hwi : Wp (ps i) (parts i) (G i) := by have := h5 i; rw [g1] at this; exact this
    obtain ⟨ki, hki, hm⟩ := ih hwi (hip i)
    have hir' : Interp rest σ' := hm.frame rest (h2 i) hir
    have hip' : ∀ j, Interp (upd parts i ki j) σ' := by
      intro j
      by_cases hj : j = i
      · subst hj; simpa [upd] using hm.interp
      · simpa [upd, hj] using hm.frame (parts j) (h3 j i hj) (hip j)
    obtain ⟨kn', hj', hi'⟩ := join_exists hir' hip'
    refine ⟨kn', ⟨rest, k0, upd parts i ki, G, hj', ?_, ?_, h4, ?_, h6, h7, h8⟩, hi', ?_, ?_, hm.clean⟩
    · intro j
      by_cases hj : j = i
      · subst hj; simpa [upd] using compat_evolves (h2 j) hm.evolves
      · simpa [upd, hj] using h2 j
    · intro j l hjl
      by_cases hj : j = i
      · subst hj
        have hl : l ≠ j := Ne.symm hjl
        simp only [upd, if_true, hl, if_false]
        exact compat_symm (compat_evolves (h3 l j hl) hm.evolves)
      · by_cases hl : l = i
        · subst hl
          simp only [upd, if_true, hj, if_false]
          exact compat_evolves (h3 j l hj) hm.evolves
        · simpa [upd, hj, hl] using h3 j l hjl
    · intro j
      by_cases hj : j = i
      · subst hj
        rw [g1]
        simpa [upd, TagOk] using hki
      · simpa [upd, hj] using h5 j
    · intro x
      constructor
      · intro h0
        cases hx : kn' x with
        | none => rfl
        | some s =>
          rcases (hj' x s).mp hx with hr | ⟨j, hr⟩
          · rw [(h1 x s).mpr (Or.inl hr)] at h0; cases h0
          · by_cases hj : j = i
            · subst hj
              simp only [upd, if_true] at hr
              cases hp : parts j x with
              | none => rw [(hm.evolves x).1 hp] at hr; cases hr
              | some t => rw [(h1 x t).mpr (Or.inr ⟨j, hp⟩)] at h0; cases h0
            · simp only [upd, hj, if_false] at hr
              rw [(h1 x s).mpr (Or.inr ⟨j, hr⟩)] at h0; cases h0
      · intro h0
        rcases (h1 x _).mp h0 with hr | ⟨j, hr⟩
        · exact (hj' x _).mpr (Or.inl hr)
        · refine (hj' x _).mpr (Or.inr ⟨j, ?_⟩)
          by_cases hj : j = i
          · subst hj; simpa [upd] using (hm.evolves x).2 hr
          · simpa [upd, hj] using hr
    · intro a hc ha
      refine hm.frame a ?_ ha
      intro x s u h1' h2'
      exact hc x s u h1' ((h1 x u).mpr (Or.inr ⟨i, h2'⟩))
  | @finish lim ctx t it n st ps k σ r i g1 g2 =>
    obtain ⟨rest, k0, parts, G, h1, h2, h3, h4, h5, h6, h7, h8⟩ := hw
    have hg : G i (parts i) r := by
      have := h5 i
      rw [g1] at this
      have this : Wp (ps i) (parts i) (G i) := this
      rw [g2] at this
      exact this
    refine ⟨kn, ⟨rest, k0, parts, G, h1, h2, h3, ?_, ?_, h6, ?_, h8⟩, moves_same hi⟩
    · have hw := Safe.cnt_upd (fun t => t ≠ .done) st.tag i .returned
      simp only [g1] at hw
      dsimp only
      rw [h4]; simpa using hw.symm
    · intro j
      dsimp only
      by_cases hj : j = i
      · subst hj
        simp only [upd, if_true]
        refine ⟨r, hg, fun hr => ?_⟩
        unfold once
        cases st.first with
        | some e => rfl
        | none => exact hr
      · have h5 := h5 j
        simp only [upd, hj, if_false]
        generalize st.tag j = tg at h5
        cases tg with
        | init => exact h5
        | running => exact h5
        | returned => exact ended_first h5
        | released => exact ended_first h5
        | done => exact h5.imp ended_first id
    · dsimp only
      unfold once
      cases hf : st.first with
      | some e => rw [hf] at h7; exact h7
      | none => exact h6 i _ r hg
  | @release lim ctx t it n st ps k σ i g1 =>
    obtain ⟨rest, k0, parts, G, h1, h2, h3, h4, h5, h6, h7, h8⟩ := hw
    refine ⟨kn, ⟨rest, k0, parts, G, h1, h2, h3, ?_, ?_, h6, h7, h8⟩, moves_same hi⟩
    · have hw := Safe.cnt_upd (fun t => t ≠ .done) st.tag i .released
      simp only [g1] at hw
      dsimp only
      rw [h4]; simpa using hw.symm
    · intro j
      dsimp only
      by_cases hj : j = i
      · subst hj
        have := h5 j
        rw [g1] at this
        simp only [upd, if_true]
        exact this
      · simpa [upd, hj] using h5 j
  | @wgDone lim ctx t it n st ps k σ i g1 =>
    obtain ⟨rest, k0, parts, G, h1, h2, h3, h4, h5, h6, h7, h8⟩ := hw
    refine ⟨kn, ⟨rest, k0, parts, G, h1, h2, h3, ?_, ?_, h6, h7, h8⟩, moves_same hi⟩
    · have hw := Safe.cnt_upd (fun t => t ≠ .done) st.tag i .done
      simp only [g1] at hw
      dsimp only
      rw [h4]
      simp at hw
      simp only [ne_eq, decide_not] at hw ⊢
      omega
    · intro j
      dsimp only
      by_cases hj : j = i
      · subst hj
        have := h5 j
        rw [g1] at this
        simp only [upd, if_true]
        exact Or.inl this
      · simpa [upd, hj] using h5 j
  | @join lim ctx t it n st ps k σ g1 =>
    obtain ⟨rest, k0, parts, G, h1, h2, h3, h4, h5, h6, h7, h8⟩ := hw
    have hd : ∀ i, st.tag i = .done := by
      intro i
      have := Safe.cnt_zero (h4.symm.trans g1) i
      simpa using this
    refine ⟨kn, h8 kn parts st.first h1 h7 ?_, moves_same hi⟩
    intro i
    have := h5 i
    rw [hd i] at this
    exact this

theorem wp_reach {s0 s : State} (h : Reach s0 s) {kn : Kn} {Q : Post} (hw : Wp s0.prog kn Q) (hi : Interp kn s0.sh)
    (h0 : ∀ e ∈ s0.sh.trace, EvAcyclic e) :
    ∃ kn', Wp s.prog kn' Q ∧ Interp kn' s.sh ∧ ∀ e ∈ s.sh.trace, EvAcyclic e := by
  induction h with
  | refl => exact ⟨kn, hw, hi, h0⟩
  | step _ hs ih =>
    obtain ⟨kn', h1, h2, h3⟩ := ih
    cases hs with
    | prog hstep =>
      obtain ⟨kn'', h4, h5⟩ := wp_step hstep h1 h2
      refine ⟨kn'', h4, h5.interp, ?_⟩
      obtain ⟨es, he, hc⟩ := h5.clean
      intro e hm
      dsimp only at hm
      rw [he] at hm
      rcases List.mem_append.mp hm with hm | hm
      · exact h3 e hm
      · exact hc e hm
    | cancel id hid =>
      refine ⟨kn', h1, h2, ?_⟩
      intro e hm
      rcases List.mem_append.mp hm with hm | hm
      · exact h3 e hm
      · rw [List.mem_singleton] at hm; subst hm; trivial

end Bab.Claim
