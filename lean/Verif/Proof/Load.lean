import Verif.Model.LoadMessage
import Verif.Spec.Load
import Verif.Props.Parser
/-
The way to the cause of an error of loading.
-/

namespace Bab.Load
open Bab Spec

variable {files : Files} {o : Orders}

/-- an error inside of includes -/
def around (trail : List (Str × Str)) (e : PErr) : PErr := trail.foldr (fun t e => .inInclude t.1 t.2 e) e

theorem fault_up {l trail : List Str} {q : Str} {e : PErr} (h : LoadFault files trail q e) : LoadFault files (l ++ trail) q e := by
  cases h with
  | missing h => exact .missing h
  | invalid h => exact .invalid h
  | circle h c => exact .circle (List.mem_append_right _ h) c
  | collision hi h h' hn hne => rw [← List.append_assoc]; exact .collision hi h h' hn hne

theorem parseFile_way (hw : FilesWF files) (ho : OrdersOK o) (fuel : Nat) {visited loc : List Str} {p : Str} {e : PErr}
    (h : parseFile files o fuel visited loc p = .error e) (hf : rootCause e ≠ .fuel) (hnd : visited.Nodup) :
    ∃ trail q leaf, e = around trail leaf ∧ Way files p (trail.map (·.1)) q ∧ (visited.reverse ++ trail.map (·.1)).Nodup ∧
      LoadFault files (visited.reverse ++ trail.map (·.1)) q leaf ∧
      ∀ chain, leaf = .circular q chain → chain = includeChain (visited.reverse ++ trail.map (·.1)).reverse q := by
  induction fuel generalizing visited loc p e with
  | zero => rw [parseFile] at h; cases h; exact absurd rfl hf
  | succ fuel ih =>
    rw [parseFile] at h
    have base : ∀ e, LoadFault files visited.reverse p e → (∀ chain, e = .circular p chain → chain = includeChain visited p) →
        ∃ trail q leaf, e = around trail leaf ∧ Way files p (trail.map (·.1)) q ∧ (visited.reverse ++ trail.map (·.1)).Nodup ∧
        LoadFault files (visited.reverse ++ trail.map (·.1)) q leaf ∧
        ∀ chain, leaf = .circular q chain → chain = includeChain (visited.reverse ++ trail.map (·.1)).reverse q := by
      intro e he hc
      refine ⟨[], p, e, rfl, .here p, by simpa using hnd, by simpa using he, fun chain hch => ?_⟩
      simpa using hc chain hch
    by_cases hv : p ∈ visited
    · rw [if_pos hv] at h; cases h
      exact base _ (.circle (by simpa using hv) _) (fun chain hc => by cases hc; rfl)
    · rw [if_neg hv] at h
      cases hfi : files.get? p with
      | none => rw [hfi] at h; cases h; exact base _ (.missing hfi) (fun _ hc => by cases hc)
      | some ob =>
        cases ob with
        | none => rw [hfi] at h; cases h; exact base _ (.invalid hfi) (fun _ hc => by cases hc)
        | some bf =>
          rw [hfi] at h
          dsimp only at h
          generalize hown : (bf.tasks.map fun q => (q.1, ({ q.2 with name := q.1, sourcePath := p } : Task))) = own at h
          cases hl : includeLoop o loc p (parseFile files o fuel (p :: visited)) (o.incs loc bf.includes) own with
          | ok t => rw [hl] at h; cases h
          | error e' =>
            rw [hl] at h
            cases h
            obtain ⟨w1, w2, w3, w4, w5⟩ := hw p bf hfi
            have hperm := (ho loc).1 bf.includes
            obtain ⟨done, ns, inc, rest, e1, h1, h2, h3⟩ := includeLoop_error ho (fun _ _ _ h => (parseFile_ok hw ho _ h).2.1.wf) hl
            have hi : Includes files p ns (includePath (dirPath p) inc) :=
              ⟨bf, inc, hfi, GoMap.get?_of_mem w2 (hperm.subset (by rw [h1]; simp)), rfl⟩
            have hnd' : (p :: visited).Nodup := List.nodup_cons.mpr ⟨hv, hnd⟩
            subst h2
            rcases h3 with h3 | ⟨r, n, T, c1, c2, rfl, c4⟩
            · obtain ⟨trail, q, leaf, rfl, k1, k2, k3, k4⟩ := ih h3 (by simpa [rootCause] using hf) hnd'
              refine ⟨(p, ns) :: trail, q, leaf, rfl, .step ⟨ns, hi⟩ k1, ?_, ?_, ?_⟩
              · simpa using k2
              · simpa using k3
              · simpa using k4
            · subst hown
              obtain ⟨nss, bs, m, f, U, as', bs', m', f', U', hc1, hc2, hc3, hc4, hc5⟩ := collision_real hw ho hfi h1 c1 c2 c4
              refine ⟨[(p, ns)], includePath (dirPath p) inc, _, rfl, .step ⟨ns, hi⟩ (.here _), ?_, ?_, fun _ hc => by cases hc⟩
              · simpa [List.nodup_append] using ⟨hnd, fun a ha hap => hv (hap ▸ ha)⟩
              · rw [hc4]
                exact .collision hi hc1 hc2 (hc3.symm.trans hc4) hc5

/-- a chain of wrapping texts -/
theorem text_around (x : LoadTexts) (trail : List (Str × Str)) (e : PErr) :
    ((around trail e).toGo x).text = (trail.map (·.1)).flatMap (fun f => relativePath x.cwd f ++ ": ".toList) ++ (e.toGo x).text := by
  induction trail with
  | nil => rfl
  | cons t trail ih =>
    show relativePath x.cwd t.1 ++ ": ".toList ++ ((around trail e).toGo x).text = _
    rw [ih]
    simp

theorem asMany_around (x : LoadTexts) (trail : List (Str × Str)) (e : PErr) : ((around trail e).toGo x).asMany = (e.toGo x).asMany := by
  induction trail with
  | nil => rfl
  | cons t trail ih => exact ih

theorem isCanceled_around (x : LoadTexts) (trail : List (Str × Str)) (e : PErr) :
    ((around trail e).toGo x).isCanceled = (e.toGo x).isCanceled := by
  induction trail with
  | nil => rfl
  | cons t trail ih => exact ih

end Bab.Load
