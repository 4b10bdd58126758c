import Verif.Proof.Size
import Verif.Props.Shell
/-
C110: how long the texts become that references make.
-/

namespace Bab
open Spec Spec.Size

/-- C110. What expansion makes of a text is no longer than the text and, for each of its references, the longest value. (A reference has at
least six characters, so the text has to be that much longer for each of them.) -/
theorem C110_text {ctx : Ctx} {s o : Str} {ts : List Tok} {M : Nat} (hr : Reads s ts) (hs : NoNul s)
    (hv : ∀ n v, n ∈ refs ts → value ctx.vars.get? ctx.env n = some v → NoNul v ∧ v.length ≤ M) (h : interpolate s ctx = .ok o) :
    o.length + 6 * (refs ts).length ≤ s.length + (refs ts).length * M :=
  Size.render_le hr (fun n v hn hx => (hv n v hn hx).2)
    ((C01_interpolate_single_pass ctx s ts hr hs (fun n v hn hx => (hv n v hn hx).1) o).mp h)

/-- C110, for the commands of a run: with the values that the variables have at a command. -/
theorem C110_command {c : Cfg} {tasks : TaskMap} {gvars : GoMap Str} {main : Str} {s : State} (h : Reach (Bab.start c tasks gvars main) s)
    {loc : Loc} {spec : ProcSpec} (he : .procStart loc spec ∈ s.sh.trace) :
    ∃ v m, itemAt tasks loc = some (.command v) ∧ .sees loc m ∈ s.sh.trace ∧
      ∀ ts M, Reads v.cmd ts → NoNul v.cmd → (∀ n x, n ∈ refs ts → value m.get? c.env n = some x → NoNul x ∧ x.length ≤ M) →
        spec.cmd.length + 6 * (refs ts).length ≤ v.cmd.length + (refs ts).length * M := by
  obtain ⟨v, m, h1, h2, h3⟩ := started_text h he
  exact ⟨v, m, h1, h2, fun ts M hr hn hv => C110_text (ctx := ⟨m, c.env⟩) hr hn hv h3⟩

/-- C110. The values of a block of `n` definitions: if each has at most `L` characters and at most `R` references, and what comes from
outside at most `P` characters, no value is longer than `R ^ n * (P + n * L)` (with 1 for `R` if there are no references). -/
theorem C110_block {vars parent m : GoMap Str} {env : Str → Option Str} {L R P : Nat}
    (hraw : ∀ k raw, vars.get? k = some raw → NoNul raw)
    (hpar : ∀ k v, parent.get? k = some v → NoNul v ∧ v.length ≤ P) (henv : ∀ k v, env k = some v → NoNul v ∧ v.length ≤ P)
    (hs : Sized vars.get? L R) (h : resolveVars (some vars) parent env = .ok m) {k v : Str} (hv : m.get? k = some v) :
    v.length ≤ longest vars.length L R P := by
  have hsol := (C04_resolveVars_unique_solution vars parent m env hraw (fun k v h => (hpar k v h).1) (fun k v h => (henv k v h).1) h).1
  have hspec := resolveVars_spec vars parent env
  rw [h] at hspec
  obtain ⟨-, -, l, ht, hl⟩ := hspec
  cases hk : vars.get? k with
  | none =>
    rw [hsol.2 k hk] at hv
    exact Nat.le_trans (hpar k v hv).2 (Size.longest_ge _ _ _ _)
  | some raw =>
    refine Nat.le_trans (Size.solution_le hs (fun k v h => (hpar k v h).2) (fun k v h => (henv k v h).2) hsol vars.keys
      (fun k hk => GoMap.mem_keys_iff.mpr hk) ht k (hl k (by rw [hk]; simp)) v hv) (Size.longest_mono ?_)
    calc _ ≤ vars.keys.toFinset.card := Finset.card_le_card Finset.inter_subset_right
      _ ≤ vars.keys.length := List.toFinset_card_le _
      _ = vars.length := by simp [GoMap.keys]

/-- C110. If no definition has more than one reference, the values are no longer than what comes from outside and all definitions together
can be. -/
theorem C110_single {vars parent m : GoMap Str} {env : Str → Option Str} {L P : Nat}
    (hraw : ∀ k raw, vars.get? k = some raw → NoNul raw)
    (hpar : ∀ k v, parent.get? k = some v → NoNul v ∧ v.length ≤ P) (henv : ∀ k v, env k = some v → NoNul v ∧ v.length ≤ P)
    (hs : Sized vars.get? L 1) (h : resolveVars (some vars) parent env = .ok m) {k v : Str} (hv : m.get? k = some v) :
    v.length ≤ P + vars.length * L := by
  simpa [longest] using C110_block hraw hpar henv hs h hv

/-! ### two references in each definition are enough to double a value with each definition -/

namespace Sample

/-- a, aa, aaa, … -/
def nth (i : Nat) : Str := List.replicate (i + 1) 'a'

def refTo (n : Str) : Str := "${{".toList ++ n ++ "}}".toList

/-- the first is x, every other refers twice to the one before -/
def refTwice : Nat → Str
  | 0 => "x".toList
  | i + 1 => refTo (nth i) ++ refTo (nth i)

def doublings : Nat → GoMap Str
  | 0 => [(nth 0, refTwice 0)]
  | n + 1 => (nth (n + 1), refTwice (n + 1)) :: doublings n

theorem nth_inj {i j : Nat} (h : nth i = nth j) : i = j := by
  have := congrArg List.length h
  simpa [nth] using this

theorem isRef_refTo (i : Nat) : IsRef (refTo (nth i)) (nth i) := by
  refine ⟨[], [], by simp [refTo], ⟨'a', List.replicate i 'a', by simp [nth, List.replicate_succ], by unfold Letter; decide, ?_⟩, by simp, by simp⟩
  intro x hx
  rw [List.eq_of_mem_replicate hx]
  unfold NameChar Letter
  decide

theorem doublings_length (n : Nat) : (doublings n).length = n + 1 := by
  induction n with
  | zero => rfl
  | succ n ih => simp [doublings, ih]

theorem doublings_get (n i : Nat) : (doublings n).get? (nth i) = if i ≤ n then some (refTwice i) else none := by
  induction n with
  | zero =>
    simp only [doublings, GoMap.get?]
    by_cases h : i = 0
    · subst h; simp
    · rw [if_neg (fun e => h (nth_inj e).symm), if_neg (by omega)]
  | succ n ih =>
    simp only [doublings, GoMap.get?]
    by_cases h : i = n + 1
    · subst h; simp
    · rw [if_neg (fun e => h (nth_inj e).symm), ih]
      by_cases h2 : i ≤ n
      · rw [if_pos h2, if_pos (by omega)]
      · rw [if_neg h2, if_neg (by omega)]

theorem doublings_some {n : Nat} {k raw : Str} (h : (doublings n).get? k = some raw) : ∃ i ≤ n, k = nth i ∧ raw = refTwice i := by
  induction n with
  | zero =>
    simp only [doublings, GoMap.get?] at h
    split at h
    · cases h; exact ⟨0, Nat.le_refl _, by simp_all, rfl⟩
    · cases h
  | succ n ih =>
    simp only [doublings, GoMap.get?] at h
    split at h
    · rename_i hk
      cases h; exact ⟨n + 1, Nat.le_refl _, hk.symm, rfl⟩
    · obtain ⟨i, h1, h2⟩ := ih h
      exact ⟨i, by omega, h2⟩

theorem refTwice_reads : (i : Nat) → Reads (refTwice i) (match i with | 0 => [.chr 'x'] | i + 1 => [.ref (nth i), .ref (nth i)])
  | 0 => .chr (by rintro ⟨r, h⟩; simp [escape] at h) (by
      rintro ⟨t, n, r, ⟨a, b, rfl, -⟩, h⟩
      simp at h) .nil
  | i + 1 => .ref (isRef_refTo i) (by simpa using Reads.ref (isRef_refTo i) .nil)

theorem refTwice_noNul (i : Nat) : NoNul (refTwice i) := by
  cases i with
  | zero => unfold NoNul; decide
  | succ i =>
    unfold NoNul
    simp [refTwice, refTo, nth, List.mem_replicate]

theorem refTwice_mentions {i : Nat} {n : Str} (h : Mentions (refTwice i) n) : ∃ j, i = j + 1 ∧ n = nth j := by
  rw [← mem_extract_iff] at h
  cases i with
  | zero => exact absurd h (by simp [refTwice, extractVarRefs, matchRef])
  | succ i =>
    have h2 : extractVarRefs 0 (refTo (nth i)) = [nth i] := by
      have := extract_ref (isRef_refTo i) (rest := [])
      simpa [extractVarRefs] using this
    rw [refTwice, extract_ref (isRef_refTo i), h2] at h
    simp at h
    exact ⟨i, rfl, h⟩

/-- what the names come to -/
def powers (n : Nat) (k : Str) : Option Str := if k.length - 1 ≤ n ∧ k = nth (k.length - 1) then some (List.replicate (2 ^ (k.length - 1)) 'x') else none

theorem powers_nth (n i : Nat) : powers n (nth i) = if i ≤ n then some (List.replicate (2 ^ i) 'x') else none := by
  simp [powers, nth]

end Sample

open Sample in
/-- C110. In general the values grow exponentially: for every `n` there are `n + 1` definitions of at most `2 * (n + 5)` characters, two references in each,
that are accepted and of which the last has the value of `2 ^ n` characters. -/
theorem C110_exponential (n : Nat) : (doublings n).length = n + 1 ∧ (doublings n).WF ∧ Sized (doublings n).get? (2 * (n + 5)) 2 ∧
    ∃ m, resolveVars (some (doublings n)) [] (fun _ => none) = .ok m ∧ m.get? (nth n) = some (List.replicate (2 ^ n) 'x') := by
  refine ⟨doublings_length n, ?_, ?_, ?_⟩
  · have : ∀ n k, k ∈ (doublings n).keys → k.length ≤ n + 1 := by
      intro n k hk
      obtain ⟨raw, h⟩ := Option.ne_none_iff_exists'.mp (GoMap.mem_keys_iff.mp hk)
      obtain ⟨i, h1, rfl, -⟩ := doublings_some h
      simpa [nth] using h1
    unfold GoMap.WF
    induction n with
    | zero => simp [doublings, GoMap.keys]
    | succ n ih =>
      simp only [doublings, GoMap.keys, List.map_cons, List.nodup_cons] at ih ⊢
      refine ⟨fun h => ?_, ih⟩
      have := this n _ h
      simp [nth] at this
      omega
  · intro k raw h
    obtain ⟨i, h1, rfl, rfl⟩ := doublings_some h
    constructor
    · cases i with
      | zero => simp [refTwice]; omega
      | succ i => simp [refTwice, refTo, nth]; omega
    · intro ts hts
      rw [reads_unique hts (refTwice_reads i)]
      cases i <;> simp [refs]
  · have hne : ¬ ∃ e, resolveVars (some (doublings n)) [] (fun _ => none) = .error e := by
      rw [C05_resolveVars_error_iff]
      rintro (⟨a, p, hp⟩ | ⟨x, ⟨k, raw, h1, ts, h2, h3⟩, -, h4, -⟩)
      · have hdec : ∀ a b, DependsOn (doublings n).get? a b → b.length < a.length := by
          rintro a b ⟨raw, h1, h2, -⟩
          obtain ⟨i, -, rfl, rfl⟩ := doublings_some h1
          obtain ⟨j, rfl, rfl⟩ := refTwice_mentions h2
          simp [nth]
        have : ∀ (p : List Str) (a b : Str), Path (DependsOn (doublings n).get?) (a :: (p ++ [b])) → b.length < a.length := by
          intro p
          induction p with
          | nil =>
            intro a b hp
            cases hp with
            | cons e _ => exact hdec _ _ e
          | cons x p ih =>
            intro a b hp
            cases hp with
            | cons e hp => exact Nat.lt_trans (ih x b hp) (hdec _ _ e)
        exact Nat.lt_irrefl _ (this p a a hp)
      · obtain ⟨i, hi, rfl, rfl⟩ := doublings_some h1
        obtain ⟨j, rfl, rfl⟩ := refTwice_mentions (reads_refs_mentions h2 x h3)
        rw [doublings_get, if_pos (by omega)] at h4
        cases h4
    cases hm : resolveVars (some (doublings n)) [] (fun _ => none) with
    | error e => exact absurd ⟨e, hm⟩ hne
    | ok m =>
      refine ⟨m, rfl, ?_⟩
      have huniq := (C04_resolveVars_unique_solution (doublings n) [] m (fun _ => none)
        (fun k raw h => by obtain ⟨i, -, -, rfl⟩ := doublings_some h; exact refTwice_noNul i) (fun k v h => by cases h) (fun k v h => by cases h) hm).2
      rw [← huniq (powers n) ⟨?_, ?_⟩ (nth n), powers_nth, if_pos (Nat.le_refl n)]
      · intro k raw h
        obtain ⟨i, hi, rfl, rfl⟩ := doublings_some h
        refine ⟨_, List.replicate (2 ^ i) 'x', refTwice_reads i, ?_, by rw [powers_nth, if_pos hi]⟩
        cases i with
        | zero => simp [render]
        | succ i =>
          have hv : value (powers n) (fun _ => none) (nth i) = some (List.replicate (2 ^ i) 'x') := by
            rw [value_var, powers_nth, if_pos (by omega)]
            rintro ⟨x, hx⟩
            have : 'e' ∈ nth i := by rw [hx]; simp
            simp [nth, List.mem_replicate] at this
          simp only [render, hv, Option.some.injEq, List.append_nil]
          rw [← List.replicate_add, Nat.pow_succ, Nat.mul_two]
      · intro k hk
        unfold powers
        rw [if_neg, GoMap.get?]
        rintro ⟨h1, h2⟩
        rw [h2, doublings_get, if_pos h1] at hk
        cases hk

/-- the bound of C110_block is of the same kind: the hypotheses hold for these definitions -/
example (n : Nat) {m : GoMap Str} (h : resolveVars (some (Sample.doublings n)) [] (fun _ => none) = .ok m) {k v : Str} (hv : m.get? k = some v) :
    v.length ≤ 2 ^ (n + 1) * ((n + 1) * (2 * (n + 5))) := by
  have h1 := C110_exponential n
  have h2 := C110_block (P := 0) (fun k raw h => by obtain ⟨i, -, -, rfl⟩ := Sample.doublings_some h; exact Sample.refTwice_noNul i)
    (fun k v h => by cases h) (fun k v h => by cases h) h1.2.2.1 h hv
  rw [h1.1] at h2
  simpa [longest] using h2

/-- a block with one reference in each definition -/
example : Sized (GoMap.get? [("b".toList, "${{a}}/y".toList), ("a".toList, "x".toList)]) 8 1 := by
  intro k raw h
  simp only [GoMap.get?] at h
  split at h
  · cases h
    refine ⟨by decide, fun ts hts => ?_⟩
    rw [← extract_replaceEscapes hts]
    decide
  · split at h
    · cases h
      refine ⟨by decide, fun ts hts => ?_⟩
      rw [← extract_replaceEscapes hts]
      decide
    · cases h

end Bab
