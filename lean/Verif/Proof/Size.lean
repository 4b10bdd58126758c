import Verif.Spec.Size
import Verif.Props.ResolveVars
import Verif.Proof.ResolveVars
import Mathlib.Data.List.Dedup
import Mathlib.Data.Finset.Card
import Mathlib.Data.Fintype.Card
/-
Helper lemmas for Props/Size.
-/

namespace Bab.Size
open Spec Spec.Size

theorem isRef_pos {t n : Str} (h : IsRef t n) : 6 ≤ t.length := by
  obtain ⟨a, b, rfl, ⟨x, r, rfl, -⟩, -⟩ := h
  simp
  omega

/-- a rendering is no longer than the text and the values that are put in -/
theorem render_le {val : Str → Option Str} {M : Nat} {s : Str} {ts : List Tok} (hr : Reads s ts) :
    (∀ n v, n ∈ refs ts → val n = some v → v.length ≤ M) → ∀ {o}, render val ts = some o →
      o.length + 6 * (refs ts).length ≤ s.length + (refs ts).length * M := by
  induction hr with
  | nil =>
    intro _ o h
    simp only [render, Option.some.injEq] at h
    subst h
    simp [refs]
  | @esc r ts _ ih =>
    intro hv o h
    simp only [render, Option.map_eq_some_iff] at h
    obtain ⟨o', h, rfl⟩ := h
    have := ih hv h
    simp only [refs, List.length_append, escape] at this ⊢
    simp
    omega
  | @ref t name r ts ht _ ih =>
    intro hv o h
    simp only [render] at h
    split at h
    · rename_i v o' h1 h2
      cases h
      have h3 := ih (fun n w hn => hv n w (by simp [refs, hn])) h2
      have h4 := hv name v (by simp [refs]) h1
      have h5 := isRef_pos ht
      simp only [refs, List.length_append, List.length_cons, Nat.add_mul, Nat.one_mul] at h3 ⊢
      omega
    · cases h
  | @chr c r ts _ _ _ ih =>
    intro hv o h
    simp only [render, Option.map_eq_some_iff] at h
    obtain ⟨o', h, rfl⟩ := h
    have := ih hv h
    simp only [refs, List.length_cons] at this ⊢
    omega

theorem longest_step (n L R P : Nat) : L + R * longest n L R P ≤ longest (n + 1) L R P := by
  unfold longest
  have h1 : 1 ≤ max 1 R ^ (n + 1) := Nat.one_le_pow _ _ (by omega)
  have h2 : R * (max 1 R ^ n * (P + n * L)) ≤ max 1 R ^ (n + 1) * (P + n * L) := by
    rw [Nat.pow_succ, ← Nat.mul_assoc, Nat.mul_comm (max 1 R ^ n) (max 1 R)]
    exact Nat.mul_le_mul_right _ (Nat.mul_le_mul_right _ (by omega))
  have h3 : L ≤ max 1 R ^ (n + 1) * L := Nat.le_mul_of_pos_left _ h1
  have h4 : max 1 R ^ (n + 1) * (P + (n + 1) * L) = max 1 R ^ (n + 1) * (P + n * L) + max 1 R ^ (n + 1) * L := by
    rw [Nat.add_mul, Nat.one_mul, ← Nat.add_assoc, Nat.mul_add]
  omega

theorem longest_mono {n n' L R P : Nat} (h : n ≤ n') : longest n L R P ≤ longest n' L R P :=
  Nat.mul_le_mul (Nat.pow_le_pow_right (by omega) h) (Nat.add_le_add_left (Nat.mul_le_mul_right _ h) _)

theorem longest_ge (n L R P : Nat) : P ≤ longest n L R P := by
  have := longest_mono (L := L) (R := R) (P := P) (Nat.zero_le n)
  simpa [longest] using this

theorem solution_le {vars parent m env : Str → Option Str} {L R P : Nat} (hs : Sized vars L R)
    (hp : ∀ k v, parent k = some v → v.length ≤ P) (he : ∀ k v, env k = some v → v.length ≤ P) (hm : Solution vars parent env m)
    (keys : List Str) (hk : ∀ k, vars k ≠ none → k ∈ keys) {l : List Str} (ht : Topo (DependsOn vars) l) :
    ∀ k ∈ l, ∀ v, m k = some v → v.length ≤ longest (l.toFinset ∩ keys.toFinset).card L R P := by
  induction l with
  | nil => simp
  | cons a l ih =>
    intro k hkl v hv
    have hsub : (l.toFinset ∩ keys.toFinset).card ≤ ((a :: l).toFinset ∩ keys.toFinset).card := by
      apply Finset.card_le_card
      intro x hx
      simp only [Finset.mem_inter, List.mem_toFinset, List.mem_cons] at hx ⊢
      exact ⟨.inr hx.1, hx.2⟩
    by_cases hin : k ∈ l
    · exact Nat.le_trans (ih ht.2 k hin v hv) (longest_mono hsub)
    · rcases List.mem_cons.mp hkl with rfl | h
      · cases hr : vars k with
        | none =>
          rw [hm.2 k hr] at hv
          exact Nat.le_trans (hp k v hv) (longest_ge _ _ _ _)
        | some raw =>
          obtain ⟨ts, w, h1, h2, h3⟩ := hm.1 k raw hr
          rw [hv] at h3
          cases h3
          have hvals : ∀ n x, n ∈ refs ts → value m env n = some x → x.length ≤ longest (l.toFinset ∩ keys.toFinset).card L R P := by
            intro n x hn hx
            by_cases hne : IsEnv n
            · obtain ⟨y, rfl⟩ := hne
              rw [value_env] at hx
              cases hy : env y with
              | none => rw [hy] at hx; simp at hx; subst hx; simp
              | some z =>
                rw [hy] at hx
                simp at hx
                subst hx
                exact Nat.le_trans (he y z hy) (longest_ge _ _ _ _)
            · rw [value_var _ _ hne] at hx
              cases hvn : vars n with
              | none =>
                rw [hm.2 n hvn] at hx
                exact Nat.le_trans (hp n x hx) (longest_ge _ _ _ _)
              | some raw' => exact ih ht.2 n (ht.1 n ⟨raw, hr, reads_refs_mentions h1 n hn, hne, by rw [hvn]; simp⟩) x hx
          have h4 := render_le h1 hvals h2
          obtain ⟨h5, h6⟩ := hs k raw hr
          have h7 := Nat.mul_le_mul_right (longest (l.toFinset ∩ keys.toFinset).card L R P) (h6 ts h1)
          have h8 := longest_step (l.toFinset ∩ keys.toFinset).card L R P
          have h9 : (l.toFinset ∩ keys.toFinset).card + 1 ≤ ((k :: l).toFinset ∩ keys.toFinset).card := by
            rw [← Finset.card_insert_of_notMem (a := k) (s := l.toFinset ∩ keys.toFinset)]
            · apply Finset.card_le_card
              intro x hx
              simp only [Finset.mem_insert, Finset.mem_inter, List.mem_toFinset, List.mem_cons] at hx ⊢
              rcases hx with rfl | hx
              · exact ⟨.inl rfl, hk x (by rw [hr]; simp)⟩
              · exact ⟨.inr hx.1, hx.2⟩
            · simp [hin]
          have h10 := longest_mono (L := L) (R := R) (P := P) h9
          omega
      · exact absurd h hin

end Bab.Size
