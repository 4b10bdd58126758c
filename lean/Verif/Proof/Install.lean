import Verif.Model.Install
import Verif.Spec.Install
import Mathlib.Data.List.Basic

/- Helpers for the theorems about the installers. -/

namespace Bab.Inst

open Spec

theorem grepAt_self (p t : Str) : grepAt p (p ++ t) = true := by
  induction p with
  | nil => rfl
  | cons c p ih => simp [grepAt, ih]

theorem grepLine_append (a p t : Str) : grepLine p (a ++ p ++ t) = true := by
  induction a with
  | nil =>
    cases h : p ++ t with
    | nil =>
      have : p = [] := (List.append_eq_nil_iff.1 h).1
      subst this
      simp only [List.nil_append, h]; rfl
    | cons c s =>
      simp only [List.nil_append, h]
      have := grepAt_self p t
      rw [h] at this
      simp [grepLine, this]
  | cons c a ih =>
    have : c :: a ++ p ++ t = c :: (a ++ p ++ t) := rfl
    rw [this]
    show (_ || grepLine p (a ++ p ++ t)) = true
    rw [ih, Bool.or_true]

theorem field1_published {h : Str} (hs : ' ' ∉ h) (ht : '\t' ∉ h) (name : Str) :
    field1 (h ++ "  ".toList ++ name) = h := by
  unfold field1
  induction h with
  | nil => simp
  | cons c h ih =>
    have h1 : c ≠ ' ' := fun e => hs (e ▸ List.mem_cons_self)
    have h2 : c ≠ '\t' := fun e => ht (e ▸ List.mem_cons_self)
    have e : c :: h ++ "  ".toList ++ name = c :: (h ++ "  ".toList ++ name) := rfl
    rw [e, List.map_cons, if_neg h2, List.takeWhile_cons_of_pos (by simpa using h1),
      ih (fun x => hs (List.mem_cons_of_mem _ x)) (fun x => ht (List.mem_cons_of_mem _ x))]

/-- text without a line end consists of one line -/
theorem captured_single {ls : List Str} {g : Str} (hg : '\n' ∉ g) (he : captured ls = g) (hne : g ≠ []) :
    ∃ n, ls = g :: List.replicate n [] := by
  unfold captured at he
  generalize hr : (ls.reverse.dropWhile (· = [])).reverse = r at he
  have hls : ls = r ++ (ls.reverse.takeWhile (· = [])).reverse := by
    have := List.takeWhile_append_dropWhile (p := fun s : Str => decide (s = [])) (l := ls.reverse)
    have h2 := congrArg List.reverse this
    rw [List.reverse_append, List.reverse_reverse, hr] at h2
    exact h2.symm
  have hrep : (ls.reverse.takeWhile (· = [])).reverse =
      List.replicate (ls.reverse.takeWhile (· = [])).reverse.length [] := by
    rw [List.eq_replicate_iff]
    refine ⟨rfl, fun b hb => ?_⟩
    have := List.all_takeWhile (p := fun s : Str => decide (s = [])) (l := ls.reverse)
    simpa using List.all_eq_true.1 this b (List.mem_reverse.1 hb)
  match r, he with
  | [], he => exact absurd he.symm (by simpa using hne)
  | [a], he =>
    have : a = g := by simpa using he
    rw [hls, hrep, this]
    exact ⟨_, rfl⟩
  | a :: b :: t, he =>
    exfalso
    apply hg
    rw [← he, List.intercalate_cons_cons]
    simp

theorem want_single {name : Str} {sums : List Str} {g : Str} (hg : '\n' ∉ g) (hne : g ≠ []) (hw : want name sums = g) :
    (∃ l ∈ sums, grepLine name l = true ∧ field1 l = g) ∧
    ∀ l ∈ sums, grepLine name l = true → field1 l = g ∨ field1 l = [] := by
  obtain ⟨n, hn⟩ := captured_single hg hw hne
  constructor
  · have : g ∈ ((sums.filter (grepLine name)).map field1) := by rw [hn]; exact List.mem_cons_self
    obtain ⟨l, hl, e⟩ := List.mem_map.1 this
    obtain ⟨h1, h2⟩ := List.mem_filter.1 hl
    exact ⟨l, h1, h2, e⟩
  · intro l hl hm
    have : field1 l ∈ ((sums.filter (grepLine name)).map field1) :=
      List.mem_map_of_mem (List.mem_filter.2 ⟨hl, hm⟩)
    rw [hn] at this
    rcases List.mem_cons.1 this with e | e
    · exact .inl e
    · exact .inr (List.mem_replicate.1 e).2

theorem hashSha256_eq {m : Machine} {file got : Str} (h : hashSha256 m file = some got) : got = m.sha file := by
  unfold hashSha256 at h
  repeat' split at h
  all_goals first | (cases h; rfl) | cases h

theorem execute_installed {m : Machine} {bindir tarball u1 u2 dir prog : Str}
    (h : execute m bindir tarball u1 u2 = .installed dir prog) :
    ∃ file sums, httpDownload m u1 = some file ∧ httpDownload m u2 = some sums ∧
      hashVerify m tarball file (m.lines sums) = true ∧ m.unpack file = some prog ∧ m.writable bindir = true ∧ dir = bindir := by
  unfold execute at h
  split at h
  · cases h
  · rename_i file hf
    split at h
    · cases h
    · rename_i sums hs
      split at h
      · rename_i hv
        split at h
        · cases h
        · rename_i p hp
          split at h
          · rename_i hw
            cases h
            exact ⟨file, sums, hf, hs, hv, hp, hw, rfl⟩
          · cases h
      · cases h

theorem execute_ne_upToDate (m : Machine) (bindir tarball u1 u2 : Str) : execute m bindir tarball u1 u2 ≠ .upToDate := by
  unfold execute
  intro h
  repeat' split at h
  all_goals cases h

theorem install_installed {m : Machine} {b : Option Str} {tag dir prog : Str} (h : install m b tag = .installed dir prog) :
    ∃ real, m.release tag = some real ∧
      execute m (chosenDir m b) (tarballName (unv real) m.uname m.arch)
        (fileUrl real (tarballName (unv real) m.uname m.arch)) (fileUrl real "checksums.txt".toList) = .installed dir prog := by
  unfold install at h
  split at h
  · split at h
    · cases h
    · rename_i real hr
      refine ⟨real, hr, ?_⟩
      dsimp only at h
      split at h
      · split at h
        · cases h
        · exact h
      · exact h
  · cases h

end Bab.Inst
