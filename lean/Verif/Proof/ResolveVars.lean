import Verif.Model.ResolveVars
import Verif.Spec.ResolveVars
import Verif.Proof.Interpolate
import Verif.Proof.GoMap
/-
Helper lemmas for Props/ResolveVars.
-/

namespace Bab
open Spec

/-! ### references in a text -/

theorem extract_replaceEscapes {s : Str} {ts : List Tok} (h : Reads s ts) :
    extractVarRefs 0 (replaceEscapes s) = refs ts := by
  induction h with
  | nil => rfl
  | esc _ ih =>
    rw [replaceEscapes_esc, extract_no_dollar placeholder_no_dollar]
    exact ih
  | @ref t name r ts ht _ ih =>
    rw [replaceEscapes_ref ht, extract_ref ht, ih]; rfl
  | chr h1 h2 _ ih =>
    have := matchRef_replaceEscapes_none h2
    rw [replaceEscapes_chr h1] at this ⊢
    rw [extract_chr this]
    exact ih

theorem reads_refs_mentions {s : Str} {ts : List Tok} (h : Reads s ts) :
    ∀ n ∈ refs ts, Mentions s n := by
  induction h with
  | nil => simp [refs]
  | @esc r ts _ ih =>
    intro n hn
    obtain ⟨a, t, b, he, ht⟩ := ih n hn
    exact ⟨escape ++ a, t, b, by rw [he]; simp [List.append_assoc], ht⟩
  | @ref t name r ts ht _ ih =>
    intro n hn
    simp only [refs, List.mem_cons] at hn
    rcases hn with h | h
    · subst h; exact ⟨[], t, r, by simp, ht⟩
    · obtain ⟨a, t', b, he, ht'⟩ := ih n h
      exact ⟨t ++ a, t', b, by rw [he]; simp [List.append_assoc], ht'⟩
  | @chr c r ts _ _ _ ih =>
    intro n hn
    obtain ⟨a, t, b, he, ht⟩ := ih n hn
    exact ⟨c :: a, t, b, by rw [he]; simp, ht⟩

theorem occurrence_after {t' rest a q r' : Str} {x : Char} (ht : t' = x :: r') (hx : '$' ∉ r')
    (ha : a ≠ []) (h : t' ++ rest = a ++ '$' :: q) : ∃ a', a = t' ++ a' ∧ rest = a' ++ '$' :: q := by
  rcases List.append_eq_append_iff.mp h with ⟨a', h1, h2⟩ | ⟨c', h1, h2⟩
  · exact ⟨a', h1, h2⟩
  · -- t' = a ++ c', '$' :: q = c' ++ rest
    cases c' with
    | nil => exact ⟨[], by simpa using h1.symm, by simpa using h2.symm⟩
    | cons y c' =>
      simp at h2
      obtain ⟨rfl, _⟩ := h2
      cases a with
      | nil => exact absurd rfl ha
      | cons z a =>
        rw [ht] at h1
        simp at h1
        exact absurd (by rw [h1.2]; simp) hx

/-- `FindAllStringSubmatch` finds exactly the references that occur in the text. -/
theorem mem_extract_iff (s n : Str) : n ∈ extractVarRefs 0 s ↔ Mentions s n := by
  generalize hl : s.length = l
  induction l using Nat.strongRecOn generalizing s with
  | _ l ih =>
    subst hl
    cases s with
    | nil =>
      simp only [extractVarRefs, List.not_mem_nil, false_iff]
      rintro ⟨a, t, b, he, ht⟩
      obtain ⟨q, rfl⟩ := isRef_ne_nil ht
      simp at he
    | cons c r =>
      cases hm : matchRef (c :: r) with
      | none =>
        rw [extract_chr hm, ih r.length (by simp) r rfl]
        constructor
        · rintro ⟨a, t, b, he, ht⟩
          exact ⟨c :: a, t, b, by rw [he]; simp, ht⟩
        · rintro ⟨a, t, b, he, ht⟩
          cases a with
          | nil =>
            have := (matchRef_iff (c :: r) n b).mpr ⟨t, ht, by simpa using he⟩
            rw [hm] at this; cases this
          | cons x a =>
            simp at he
            exact ⟨a, t, b, by simp [he.2], ht⟩
      | some p =>
        obtain ⟨m, rest⟩ := p
        obtain ⟨t', ht', he'⟩ := (matchRef_iff _ _ _).mp hm
        have hlt : rest.length < (c :: r).length := by
          rw [he']; have := isRef_length ht'; simp; omega
        rw [he', extract_ref ht', List.mem_cons, ih rest.length hlt rest rfl]
        constructor
        · rintro (rfl | ⟨a, t, b, he, ht⟩)
          · exact ⟨[], t', rest, by simp, ht'⟩
          · exact ⟨t' ++ a, t, b, by rw [he]; simp [List.append_assoc], ht⟩
        · rintro ⟨a, t, b, he, ht⟩
          cases a with
          | nil =>
            left
            have he2 : t' ++ rest = t ++ b := by simpa using he
            exact (isRef_unique ht' ht he2).1.symm
          | cons x a =>
            right
            obtain ⟨y, hy, hd⟩ := isRef_no_dollar ht'
            obtain ⟨q, hq⟩ := isRef_ne_nil ht
            have he2 : t' ++ rest = (x :: a) ++ '$' :: ('{' :: '{' :: q ++ b) := by
              rw [he, hq]; simp
            obtain ⟨a', h1, h2⟩ := occurrence_after hy hd (by simp) he2
            exact ⟨a', t, b, by rw [h2, hq]; simp, ht⟩

theorem substRefs_congr {look look' : Str → Except Err Str} {s : Str}
    (h : ∀ n ∈ extractVarRefs 0 s, look n = look' n) :
    substRefs look 0 s = substRefs look' 0 s := by
  generalize hl : s.length = l
  induction l using Nat.strongRecOn generalizing s with
  | _ l ih =>
    subst hl
    cases s with
    | nil => simp [substRefs]
    | cons c r =>
      cases hm : matchRef (c :: r) with
      | none =>
        rw [extract_chr hm] at h
        rw [substRefs_chr hm, substRefs_chr hm, ih r.length (by simp) h rfl]
      | some p =>
        obtain ⟨m, rest⟩ := p
        obtain ⟨t', ht', he'⟩ := (matchRef_iff _ _ _).mp hm
        have hlt : rest.length < (c :: r).length := by
          rw [he']; have := isRef_length ht'; simp; omega
        rw [he', extract_ref ht'] at h
        have h1 := h m (by simp)
        have h2 := ih rest.length hlt (fun n hn => h n (by simp [hn])) rfl
        simp only [substRefs, hm]
        rw [substRefs_skip look, substRefs_skip look', drop_match (isRef_length ht') he', h1, h2]

/-- Expansion only depends on the values of the names mentioned. -/
theorem interpolate_congr {raw : Str} {m m' : GoMap Str} {env : Str → Option Str}
    (h : ∀ n, Mentions raw n → ¬ IsEnv n → m.get? n = m'.get? n) :
    interpolate raw ⟨m, env⟩ = interpolate raw ⟨m', env⟩ := by
  obtain ⟨ts, hts⟩ := reads_exists raw
  have : substRefs (resolveVar ⟨m, env⟩) 0 (replaceEscapes raw)
      = substRefs (resolveVar ⟨m', env⟩) 0 (replaceEscapes raw) := by
    apply substRefs_congr
    intro n hn
    rw [extract_replaceEscapes hts] at hn
    rw [resolveVar_value, resolveVar_value]
    by_cases he : IsEnv n
    · obtain ⟨x, rfl⟩ := he
      rw [value_env, value_env]
    · rw [value_var _ _ he, value_var _ _ he]
      simp only
      rw [h n (reads_refs_mentions hts n hn) he]
  unfold interpolate interpolateFull
  simp only [this]

/-! ### graphs -/

theorem path_append {α : Type} {E : α → α → Prop} {l : List α} {a b : α}
    (h : Path E (l ++ [a])) (e : E a b) : Path E (l ++ [a] ++ [b]) := by
  induction l with
  | nil => exact .cons e (.one b)
  | cons x l ih =>
    cases l with
    | nil =>
      cases h with
      | cons h1 h2 => exact .cons h1 (ih h2)
    | cons y l =>
      cases h with
      | cons h1 h2 => exact .cons h1 (ih h2)

theorem path_suffix {α : Type} {E : α → α → Prop} {l l' : List α} {a : α}
    (h : Path E (l ++ a :: l')) : Path E (a :: l') := by
  induction l with
  | nil => exact h
  | cons x l ih =>
    cases l with
    | nil => cases h with | cons _ h2 => exact h2
    | cons y l => cases h with | cons _ h2 => exact ih h2

/-- a path whose last node occurs before -/
def Lasso {α : Type} (E : α → α → Prop) (c : List α) : Prop :=
  Path E c ∧ ∃ l a, c = l ++ [a] ∧ a ∈ l

theorem Lasso.hasCycle {α : Type} {E : α → α → Prop} {c : List α} (h : Lasso E c) : HasCycle E := by
  obtain ⟨hp, l, a, rfl, ha⟩ := h
  obtain ⟨x, y, rfl⟩ := List.append_of_mem ha
  rw [List.append_assoc] at hp
  exact ⟨a, y, path_suffix hp⟩

/-- each node's successors come later in the list -/
def Topo {α : Type} (E : α → α → Prop) : List α → Prop
  | [] => True
  | a :: l => (∀ b, E a b → b ∈ l) ∧ Topo E l

theorem Topo.closed {α : Type} {E : α → α → Prop} {l : List α} (h : Topo E l) {a b : α}
    (ha : a ∈ l) (e : E a b) : b ∈ l := by
  induction l with
  | nil => simp at ha
  | cons x l ih =>
    rcases List.mem_cons.mp ha with h' | h'
    · subst h'; exact List.mem_cons_of_mem _ (h.1 b e)
    · exact List.mem_cons_of_mem _ (ih h.2 h')

theorem Topo.path_mem {α : Type} {E : α → α → Prop} {l : List α} (h : Topo E l) :
    ∀ {p : List α}, Path E p → ∀ a r, p = a :: r → a ∈ l → ∀ x ∈ p, x ∈ l := by
  intro p hp
  induction hp with
  | one a => intro a' r he ha x hx; simp at he hx; subst hx; rw [he.1]; exact ha
  | @cons a b r e _ ih =>
    intro a' r' he ha x hx
    simp at he
    rcases List.mem_cons.mp hx with h' | h'
    · rw [h', he.1]; exact ha
    · rw [← he.1] at ha; exact ih b r rfl (h.closed ha e) x h'

/-- a cycle with all its nodes in a topologically sorted list is impossible -/
theorem Topo.no_cycle {α : Type} {E : α → α → Prop} {l : List α} (h : Topo E l) {a : α}
    {p : List α} (ha : a ∈ l) (hp : Path E (a :: (p ++ [a]))) : False := by
  induction l with
  | nil => simp at ha
  | cons x l ih =>
    by_cases hal : a ∈ l
    · exact ih h.2 hal
    · have : a = x := by
        rcases List.mem_cons.mp ha with h' | h'
        · exact h'
        · exact absurd h' hal
      subst this
      generalize hq : p ++ [a] = q at hp
      cases hp with
      | one => simp at hq
      | @cons _ b r e hp' =>
        have hb := h.1 b e
        have hall := h.2.path_mem hp' b r rfl hb
        exact hal (hall a (by rw [← hq]; simp))

theorem nodup_length_le {α : Type} [DecidableEq α] {l m : List α} (hn : l.Nodup)
    (hs : ∀ x ∈ l, x ∈ m) : l.length ≤ m.length := by
  induction l generalizing m with
  | nil => simp
  | cons a l ih =>
    have ha := hs a (by simp)
    rw [List.nodup_cons] at hn
    have : l.length ≤ (m.erase a).length := by
      apply ih hn.2
      intro x hx
      rw [List.mem_erase_of_ne]
      · exact hs x (by simp [hx])
      · rintro rfl; exact hn.1 hx
    rw [List.length_erase_of_mem ha] at this
    have := List.length_pos_of_mem ha
    simp
    omega

/-! ### the invariant of `resolveOne` -/

section
variable (vars parent : GoMap Str) (env : Str → Option Str)

structure RInv (st : RState) : Prop where
  sub : ∀ k ∈ st.resolvedSet, vars.get? k ≠ none
  val : ∀ k ∈ st.resolvedSet, ∀ raw, vars.get? k = some raw →
    ∃ v, interpolate raw ⟨st.resolved, env⟩ = .ok v ∧ st.resolved.get? k = some v
  par : ∀ k, k ∉ st.resolvedSet → st.resolved.get? k = parent.get? k
  topo : Topo (DependsOn vars.get?) st.resolvedSet
  res : st.resolving = st.stack.reverse
  nodup : st.stack.Nodup
  skeys : ∀ k ∈ st.stack, vars.get? k ≠ none
  disj : ∀ k ∈ st.stack, k ∉ st.resolvedSet

/-- the errors resolution may report -/
def GoodErr (e : Err) : Prop :=
  (∃ n c, e = .varCycle n c ∧ Lasso (DependsOn vars.get?) c) ∨
  (∃ n, e = .varNotFound n ∧ Undefined vars.get? parent.get? n)

structure ROk (st : RState) (name v : Str) (st' : RState) : Prop where
  inv : RInv vars parent env st'
  stack : st'.stack = st.stack
  resolving : st'.resolving = st.resolving
  mono : ∀ k ∈ st.resolvedSet, k ∈ st'.resolvedSet
  mem : name ∈ st'.resolvedSet
  get : st'.resolved.get? name = some v

/-- specification of the recursive call -/
def OneSpec (fuel : Nat) (one : Str → RState → Except Err (Str × RState)) : Prop :=
  ∀ name st, RInv vars parent env st → vars.get? name ≠ none →
    Path (DependsOn vars.get?) (st.stack ++ [name]) → vars.length < fuel + st.stack.length →
    match one name st with
    | .ok (v, st') => ROk vars parent env st name v st'
    | .error e => GoodErr vars parent e

theorem set_same_get {m : GoMap Str} {k v : Str} (h : m.get? k = some v) (k' : Str) :
    (m.set k v).get? k' = m.get? k' := by
  rw [GoMap.get?_set]
  split
  · rename_i h'; subst h'; exact h.symm
  · rfl

theorem inv_set_same {st : RState} (h : RInv vars parent env st) {k v : Str}
    (hk : k ∈ st.resolvedSet) (hv : st.resolved.get? k = some v) :
    RInv vars parent env { st with
      resolved := st.resolved.set k v, resolvedSet := addName st.resolvedSet k } := by
  have hadd : addName st.resolvedSet k = st.resolvedSet := by simp [addName, hk]
  refine ⟨?_, ?_, ?_, ?_, h.res, h.nodup, h.skeys, ?_⟩
  · simpa only [hadd] using h.sub
  · intro k' hk' raw hraw
    rw [hadd] at hk'
    obtain ⟨w, h1, h2⟩ := h.val k' hk' raw hraw
    refine ⟨w, ?_, by simp only [set_same_get hv]; exact h2⟩
    rw [← h1]
    exact interpolate_congr (fun n _ _ => set_same_get hv n)
  · intro k' hk'
    simp only [hadd] at hk'
    simp only [set_same_get hv]
    exact h.par k' hk'
  · simpa only [hadd] using h.topo
  · simpa only [hadd] using h.disj

theorem resolveRefs_spec {fuel : Nat} {one : Str → RState → Except Err (Str × RState)}
    (hone : OneSpec vars parent env fuel one) (name raw : Str) (hraw : vars.get? name = some raw)
    (rs : List Str) (hrs : ∀ r ∈ rs, Mentions raw r) (st : RState)
    (hinv : RInv vars parent env st) (pre : List Str) (hstack : st.stack = pre ++ [name])
    (hpath : Path (DependsOn vars.get?) st.stack) (hfuel : vars.length < fuel + st.stack.length) :
    match resolveRefs vars one rs st with
    | .ok st' => RInv vars parent env st' ∧ st'.stack = st.stack ∧ st'.resolving = st.resolving ∧
        (∀ k ∈ st.resolvedSet, k ∈ st'.resolvedSet) ∧
        (∀ r ∈ rs, ¬ IsEnv r → vars.get? r ≠ none → r ∈ st'.resolvedSet)
    | .error e => GoodErr vars parent e := by
  induction rs generalizing st with
  | nil => exact ⟨hinv, rfl, rfl, fun _ h => h, by simp⟩
  | cons r rs ih =>
    have hrs' : ∀ r ∈ rs, Mentions raw r := fun x hx => hrs x (by simp [hx])
    unfold resolveRefs
    by_cases henv : "env.".toList.isPrefixOf r = true
    · rw [if_pos henv]
      rw [List.isPrefixOf_iff_prefix] at henv
      have henv' : IsEnv r := by obtain ⟨x, hx⟩ := henv; exact ⟨x, hx.symm⟩
      have := ih hrs' st hinv hstack hpath hfuel
      revert this
      cases resolveRefs vars one rs st with
      | error e => exact id
      | ok st' =>
        rintro ⟨h1, h2, h3, h4, h5⟩
        refine ⟨h1, h2, h3, h4, ?_⟩
        intro x hx hne hv
        rcases List.mem_cons.mp hx with h | h
        · subst h; exact absurd henv' hne
        · exact h5 x h hne hv
    · rw [if_neg henv]
      have henv' : ¬ IsEnv r := by
        rintro ⟨x, rfl⟩
        exact henv (by rw [List.isPrefixOf_iff_prefix]; exact ⟨x, rfl⟩)
      by_cases hhas : vars.has r = true
      · rw [if_pos hhas]
        rw [GoMap.has_iff] at hhas
        have hdep : DependsOn vars.get? name r := ⟨raw, hraw, hrs r (by simp), henv', hhas⟩
        have hp : Path (DependsOn vars.get?) (st.stack ++ [r]) := by
          rw [hstack] at hpath ⊢
          exact path_append hpath hdep
        have h1 := hone r st hinv hhas hp hfuel
        revert h1
        cases ho : one r st with
        | error e => exact id
        | ok p =>
          obtain ⟨v, st'⟩ := p
          intro hok
          simp only at hok ⊢
          have hinv' := inv_set_same vars parent env hok.inv hok.mem hok.get
          have hadd : addName st'.resolvedSet r = st'.resolvedSet := by simp [addName, hok.mem]
          have h2 := ih hrs' _ hinv' (by simp only; rw [hok.stack, hstack])
            (by simp only; rw [hok.stack]; exact hpath) (by simp only; rw [hok.stack]; exact hfuel)
          revert h2
          cases resolveRefs vars one rs _ with
          | error e => exact id
          | ok st'' =>
            rintro ⟨g1, g2, g3, g4, g5⟩
            simp only [hadd] at g2 g3 g4
            refine ⟨g1, by rw [g2, hok.stack], by rw [g3, hok.resolving],
              fun k hk => g4 k (hok.mono k hk), ?_⟩
            intro x hx hne hv
            rcases List.mem_cons.mp hx with h | h
            · subst h; exact g4 x hok.mem
            · exact g5 x h hne hv
      · rw [if_neg hhas]
        rw [GoMap.has_iff] at hhas
        have := ih hrs' st hinv hstack hpath hfuel
        revert this
        cases resolveRefs vars one rs st with
        | error e => exact id
        | ok st' =>
          rintro ⟨h1, h2, h3, h4, h5⟩
          refine ⟨h1, h2, h3, h4, ?_⟩
          intro x hx hne hv
          rcases List.mem_cons.mp hx with h | h
          · subst h; exact absurd hv hhas
          · exact h5 x h hne hv

theorem reverse_filter_last {pre : List Str} {name : Str} (hn : (pre ++ [name]).Nodup) :
    (pre ++ [name]).reverse.filter (· ≠ name) = pre.reverse := by
  rw [List.reverse_append, List.reverse_singleton, List.singleton_append, List.filter_cons,
    if_neg (by simp), List.filter_eq_self]
  intro x hx
  rw [List.nodup_append] at hn
  simp only [ne_eq, decide_not, Bool.not_eq_eq_eq_not, Bool.not_true, decide_eq_false_iff_not]
  exact hn.2.2 x (List.mem_reverse.mp hx) name (by simp)

theorem resolveOne_spec (fuel : Nat) :
    OneSpec vars parent env fuel (resolveOne vars parent env fuel) := by
  induction fuel with
  | zero =>
    intro name st hinv _ _ hfuel
    exfalso
    have hle : st.stack.length ≤ vars.keys.length :=
      nodup_length_le hinv.nodup (fun k hk => GoMap.mem_keys_iff.mpr (hinv.skeys k hk))
    simp [GoMap.keys] at hle
    omega
  | succ fuel ih =>
    intro name st hinv hname hpath hfuel
    unfold resolveOne
    by_cases h1 : name ∈ st.resolvedSet
    · rw [if_pos h1]
      obtain ⟨raw, hraw⟩ := Option.ne_none_iff_exists'.mp hname
      obtain ⟨v, _, hv⟩ := hinv.val name h1 raw hraw
      exact ⟨hinv, rfl, rfl, fun _ h => h, h1, by simp [hv]⟩
    · rw [if_neg h1]
      by_cases h2 : name ∈ st.resolving
      · rw [if_pos h2]
        left
        refine ⟨name, _, rfl, hpath, st.stack, name, rfl, ?_⟩
        rw [hinv.res] at h2
        exact List.mem_reverse.mp h2
      · rw [if_neg h2]
        obtain ⟨raw, hraw⟩ := Option.ne_none_iff_exists'.mp hname
        rw [hraw]
        simp only
        have hns : name ∉ st.stack := by
          rw [hinv.res] at h2
          exact fun h => h2 (List.mem_reverse.mpr h)
        have hinv1 : RInv vars parent env
            { st with resolving := name :: st.resolving, stack := st.stack ++ [name] } := by
          refine ⟨hinv.sub, hinv.val, hinv.par, hinv.topo, ?_, ?_, ?_, ?_⟩
          · simp [hinv.res]
          · rw [List.nodup_append]
            refine ⟨hinv.nodup, by simp, ?_⟩
            intro a ha b hb
            simp at hb; subst hb
            rintro rfl; exact hns ha
          · intro k hk
            rcases List.mem_append.mp hk with h | h
            · exact hinv.skeys k h
            · simp at h; subst h; exact hname
          · intro k hk
            rcases List.mem_append.mp hk with h | h
            · exact hinv.disj k h
            · simp at h; subst h; exact h1
        have hrefs := resolveRefs_spec vars parent env ih name raw hraw (extractVarRefs 0 raw)
          (fun r hr => (mem_extract_iff raw r).mp hr) _ hinv1 st.stack rfl hpath
          (by simp; omega)
        revert hrefs
        cases hr : resolveRefs vars (resolveOne vars parent env fuel) (extractVarRefs 0 raw)
            { st with resolving := name :: st.resolving, stack := st.stack ++ [name] } with
        | error e => exact id
        | ok st2 =>
          rintro ⟨g1, g2, g3, g4, g5⟩
          simp only at g2 g3 g4 g5 ⊢
          have hnot : name ∉ st2.resolvedSet := g1.disj name (by rw [g2]; simp)
          cases hi : interpolate raw ⟨st2.resolved, env⟩ with
          | error e =>
            obtain ⟨ts, hts⟩ := reads_exists raw
            right
            have herr : (substRefs (resolveVar ⟨st2.resolved, env⟩) 0 (replaceEscapes raw)).2
                = ((refs ts).filter (fun n => (value st2.resolved.get? env n).isNone)).map
                    .varNotFound := by
              rw [substRefs_errs hts, tokErrs_resolve]
            unfold interpolate interpolateFull at hi
            simp only [herr] at hi
            cases hf : (refs ts).filter (fun n => (value st2.resolved.get? env n).isNone) with
            | nil => simp [hf] at hi
            | cons n ns =>
              simp [hf] at hi
              have hmem : n ∈ (refs ts).filter (fun n => (value st2.resolved.get? env n).isNone) := by
                rw [hf]; simp
              rw [List.mem_filter] at hmem
              obtain ⟨hm1, hm2⟩ := hmem
              have hnenv : ¬ IsEnv n := by
                rintro ⟨x, rfl⟩; rw [value_env] at hm2; simp at hm2
              rw [value_var _ _ hnenv, Option.isNone_iff_eq_none] at hm2
              have hvn : vars.get? n = none := by
                apply Classical.byContradiction
                intro hcon
                have := g5 n ((mem_extract_iff raw n).mpr (reads_refs_mentions hts n hm1)) hnenv hcon
                obtain ⟨raw', hraw'⟩ := Option.ne_none_iff_exists'.mp hcon
                obtain ⟨v, _, hv⟩ := g1.val n this raw' hraw'
                rw [hm2] at hv; cases hv
              refine ⟨n, hi.symm, ⟨name, raw, hraw, ts, hts, hm1⟩, hnenv, hvn, ?_⟩
              rw [← g1.par n (fun hn => g1.sub n hn hvn)]
              exact hm2
          | ok v =>
            have hadd : addName st2.resolvedSet name = name :: st2.resolvedSet := by
              simp [addName, hnot]
            have hstk : st2.stack.dropLast = st.stack := by rw [g2]; simp
            have hnd := g1.nodup
            rw [g2] at hnd
            have hrev : st2.resolving.filter (fun x => decide (x ≠ name)) = st.stack.reverse := by
              rw [g1.res, g2]
              exact reverse_filter_last hnd
            have hdep_mem : ∀ b, DependsOn vars.get? name b → b ∈ st2.resolvedSet := by
              rintro b ⟨raw', hraw', hm, he, hv⟩
              rw [hraw] at hraw'; cases hraw'
              exact g5 b ((mem_extract_iff raw b).mpr hm) he hv
            -- the names mentioned by a resolved definition keep their values
            have hkeep : ∀ k ∈ st2.resolvedSet, ∀ raw', vars.get? k = some raw' →
                ∀ n, Mentions raw' n → ¬ IsEnv n →
                (st2.resolved.set name v).get? n = st2.resolved.get? n := by
              intro k hk raw' hraw' n hmn hen
              apply GoMap.get?_set_ne
              rintro rfl
              exact hnot (g1.topo.closed hk ⟨raw', hraw', hmn, hen, hname⟩)
            have hself : interpolate raw ⟨st2.resolved.set name v, env⟩ = .ok v := by
              rw [← hi]
              apply interpolate_congr
              intro n hmn hen
              apply GoMap.get?_set_ne
              rintro rfl
              exact hnot (hdep_mem _ ⟨raw, hraw, hmn, hen, hname⟩)
            refine ⟨⟨?_, ?_, ?_, ?_, ?_, ?_, ?_, ?_⟩, ?_, ?_, ?_, ?_, ?_⟩
            · intro k hk
              simp only [hadd, List.mem_cons] at hk
              rcases hk with h | h
              · subst h; exact hname
              · exact g1.sub k h
            · intro k hk raw' hraw'
              simp only [hadd, List.mem_cons] at hk
              rcases hk with h | h
              · subst h
                rw [hraw] at hraw'; cases hraw'
                exact ⟨v, hself, by simp [GoMap.get?_set]⟩
              · obtain ⟨w, hw1, hw2⟩ := g1.val k h raw' hraw'
                refine ⟨w, ?_, ?_⟩
                · rw [← hw1]
                  exact interpolate_congr (fun n hmn hen => hkeep k h raw' hraw' n hmn hen)
                · simp only
                  rw [GoMap.get?_set_ne]
                  · exact hw2
                  · rintro rfl; exact hnot h
            · intro k hk
              simp only [hadd, List.mem_cons, not_or] at hk
              simp only
              rw [GoMap.get?_set_ne _ _ (Ne.symm hk.1)]
              exact g1.par k hk.2
            · simp only [hadd]
              exact ⟨hdep_mem, g1.topo⟩
            · simp only; rw [hrev, hstk]
            · simp only; rw [hstk]; exact hinv.nodup
            · simp only; rw [hstk]; exact hinv.skeys
            · intro k hk
              simp only [hstk] at hk
              simp only [hadd, List.mem_cons, not_or]
              refine ⟨?_, g1.disj k (by rw [g2]; simp [hk])⟩
              rintro rfl; exact hns hk
            · exact hstk
            · simp only; rw [hrev, hinv.res]
            · intro k hk
              simp only [hadd]
              exact List.mem_cons_of_mem _ (g4 k hk)
            · simp [hadd]
            · simp [GoMap.get?_set]

theorem resolveAll_spec (one : Str → RState → Except Err (Str × RState)) (fuel : Nat)
    (hone : OneSpec vars parent env fuel one) (hfuel : vars.length < fuel) (ns : List Str)
    (hns : ∀ n ∈ ns, vars.get? n ≠ none) (st : RState) (hinv : RInv vars parent env st)
    (hst : st.stack = []) :
    match resolveAll one ns st with
    | .ok st' => RInv vars parent env st' ∧ st'.stack = [] ∧
        (∀ k ∈ st.resolvedSet, k ∈ st'.resolvedSet) ∧ (∀ n ∈ ns, n ∈ st'.resolvedSet)
    | .error e => GoodErr vars parent e := by
  induction ns generalizing st with
  | nil => exact ⟨hinv, hst, fun _ h => h, by simp⟩
  | cons n ns ih =>
    unfold resolveAll
    have h1 := hone n st hinv (hns n (by simp)) (by rw [hst]; exact .one n) (by omega)
    revert h1
    cases one n st with
    | error e => exact id
    | ok p =>
      obtain ⟨v, st'⟩ := p
      intro hok
      simp only at hok ⊢
      have h2 := ih (fun x hx => hns x (by simp [hx])) st' hok.inv (by rw [hok.stack, hst])
      revert h2
      cases resolveAll one ns st' with
      | error e => exact id
      | ok st'' =>
        rintro ⟨g1, g2, g3, g4⟩
        refine ⟨g1, g2, fun k hk => g3 k (hok.mono k hk), ?_⟩
        intro x hx
        rcases List.mem_cons.mp hx with h | h
        · subst h; exact g3 _ hok.mem
        · exact g4 x h

theorem resolveVars_spec :
    match resolveVars (some vars) parent env with
    | .ok m => (∀ k raw, vars.get? k = some raw →
          ∃ v, interpolate raw ⟨m, env⟩ = .ok v ∧ m.get? k = some v) ∧
        (∀ k, vars.get? k = none → m.get? k = parent.get? k) ∧
        (∃ l, Topo (DependsOn vars.get?) l ∧ ∀ k, vars.get? k ≠ none → k ∈ l)
    | .error e => GoodErr vars parent e := by
  have hinv : RInv vars parent env
      { resolved := parent, resolvedSet := [], resolving := [], stack := [] } :=
    ⟨by simp, by simp, by simp, trivial, rfl, by simp, by simp, by simp⟩
  have h := resolveAll_spec vars parent env _ _ (resolveOne_spec vars parent env (vars.length + 1))
    (by omega) vars.keys (fun n hn => GoMap.mem_keys_iff.mp hn) _ hinv rfl
  unfold resolveVars
  revert h
  simp only
  cases resolveAll (resolveOne vars parent env (vars.length + 1)) vars.keys
    { resolved := parent, resolvedSet := [], resolving := [], stack := [] } with
  | error e => exact id
  | ok st =>
    rintro ⟨g1, g2, g3, g4⟩
    simp only
    refine ⟨?_, ?_, st.resolvedSet, g1.topo, ?_⟩
    · intro k raw hraw
      exact g1.val k (g4 k (GoMap.mem_keys_iff.mpr (by rw [hraw]; simp))) raw hraw
    · intro k hk
      exact g1.par k (fun h => g1.sub k h hk)
    · intro k hk
      exact g4 k (GoMap.mem_keys_iff.mpr hk)

end

end Bab
