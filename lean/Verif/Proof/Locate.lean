import Verif.Model.Locate
/-
The errors of validation with places, and without.
-/

namespace Bab

theorem depsAt_err (root : Str) (order tasks : TaskMap) : (depsAt root order tasks).map (·.err) = validateDependencies order tasks := by
  unfold depsAt validateDependencies
  rw [List.map_flatMap]
  congr 1
  funext q
  obtain ⟨name, T⟩ := q
  dsimp only
  rw [List.map_flatMap]
  congr 1
  funext x
  split <;> rfl

mutual
theorem refAt_err (root by_ : Str) (tasks : TaskMap) (item : RunItem) :
    (refAt root by_ tasks item).map (·.err) = validateRunItemTaskRef by_ tasks item := by
  cases item with
  | parallel items _ _ _ _ _ _ _ _ _ => rw [refAt, validateRunItemTaskRef, refsAt_err root by_ tasks items]
  | task t => rw [refAt, validateRunItemTaskRef]; split <;> rfl
  | command v => rfl
  | log v => rfl
  | prompt v => rfl
theorem refsAt_err (root by_ : Str) (tasks : TaskMap) (items : List RunItem) :
    (refsAt root by_ tasks items).map (·.err) = validateRunItemTaskRefs by_ tasks items := by
  match items with
  | [] => rfl
  | item :: items =>
    rw [refsAt, validateRunItemTaskRefs, List.map_append, refAt_err root by_ tasks item, refsAt_err root by_ tasks items]
end

theorem get?_names (m : GoMap (Str × Nat)) (a : Str) : GoMap.get? (m.map fun e => (e.1, e.2.1)) a = (m.get? a).map (·.1) := by
  induction m with
  | nil => rfl
  | cons q m ih =>
    obtain ⟨k, v⟩ := q
    rw [List.map_cons, GoMap.get?, GoMap.get?]
    split
    · rfl
    · exact ih

theorem set_names (m : GoMap (Str × Nat)) (a : Str) (v : Str × Nat) :
    (m.set a v).map (fun e => (e.1, e.2.1)) = GoMap.set (m.map fun e => (e.1, e.2.1)) a v.1 := by
  induction m with
  | nil => rfl
  | cons q m ih =>
    obtain ⟨k, w⟩ := q
    rw [List.map_cons, GoMap.set, GoMap.set]
    split
    · rfl
    · rw [List.map_cons, ih]

theorem aliasAt_err (root : Str) (tasks : TaskMap) (name : Str) (T : Task) (l : List Str) (seen : GoMap (Str × Nat)) :
    ((aliasAt root tasks name T l seen).1.map (·.err), (aliasAt root tasks name T l seen).2.map fun e => (e.1, e.2.1)) =
      aliasLoop tasks name l (seen.map fun e => (e.1, e.2.1)) := by
  induction l generalizing seen with
  | nil => rfl
  | cons a l ih =>
    rw [aliasAt, aliasLoop]
    split
    · exact ih seen
    · split
      · dsimp only; rw [← ih seen]; rfl
      · rw [get?_names]
        cases seen.get? a with
        | some o => dsimp only [Option.map]; rw [← ih seen]; rfl
        | none => dsimp only [Option.map]; rw [ih, set_names]

theorem aliasesAt_err (root : Str) (tasks order : TaskMap) (seen : GoMap (Str × Nat)) :
    (aliasesAt root tasks order seen).map (·.err) = aliasesLoop tasks order (seen.map fun e => (e.1, e.2.1)) := by
  induction order generalizing seen with
  | nil => rfl
  | cons q order ih =>
    obtain ⟨n, T⟩ := q
    rw [aliasesAt, aliasesLoop, ← aliasAt_err root tasks n T, List.map_append, ih]

theorem validateAt_err (root : Str) (grow : Nat → Nat) (o1 o2 o3 o4 tasks : TaskMap) :
    (validateAt root grow o1 o2 o3 o4 tasks).map (·.err) = validateAll grow o1 o2 o3 o4 tasks := by
  unfold validateAt validateAll validateAliases
  rw [List.map_append, List.map_append, List.map_append, depsAt_err, aliasesAt_err, callsAt, validateRunTaskRefs, cyclesAt,
    List.map_map, List.map_flatMap]
  congr 2
  · congr 1
    congr 1
    funext q
    exact refsAt_err root q.1 tasks q.2.run
  · exact List.map_id _

theorem validateAt_nil {root : Str} {grow : Nat → Nat} {o1 o2 o3 o4 tasks : TaskMap} :
    validateAt root grow o1 o2 o3 o4 tasks = [] ↔ validateAll grow o1 o2 o3 o4 tasks = [] := by
  rw [← validateAt_err root, List.map_eq_nil_iff]

end Bab
