import Verif.Proof.Parser
import Verif.Props.Parser
import Verif.Spec.Cli
import Mathlib.Data.List.TakeWhile
/-
Loading files in different orders; when validation finds nothing.
-/

namespace Bab
open Spec

/-! ### Maps -/

theorem perm_of_get? {β : Type} {m m' : GoMap β} (h : m.WF) (h' : m'.WF) (hg : ∀ k, m.get? k = m'.get? k) : m.Perm m' := by
  rw [List.perm_ext_iff_of_nodup (List.Nodup.of_map _ h) (List.Nodup.of_map _ h')]
  rintro ⟨k, b⟩
  rw [← GoMap.get?_iff_mem h, ← GoMap.get?_iff_mem h', hg]

/-! ### The tasks that loading gives, exactly -/

/-- a result with the settings of a file -/
def settings (b : Schema) : ParseResult where
  path := []
  vars := b.vars
  env := b.env
  silent := b.silent
  output := b.output
  dir := b.dir
  tasks := []
  aliases := []

theorem includedTask_settings {b : Schema} {r : ParseResult} (h : SettingsOf b r) (ns name : Str) (T : Task) :
    includedTask ns r name T = includedTask ns (settings b) name T := by
  unfold includedTask settings
  rw [h.vars, h.env, h.silent, h.output, h.dir]

/-- the task `full` as loading file `p` makes it -/
inductive Makes (files : Files) : Str → Str → Task → Prop
  | own {p bf n T} (hf : files.get? p = some (some bf)) (ht : bf.tasks.get? n = some T) :
      Makes files p n { T with name := n, sourcePath := p }
  | inc {p ns q b n T} (hi : Includes files p ns q) (hf : files.get? q = some (some b)) (hm : Makes files q n T) :
      Makes files p (nsName ns n) (includedTask ns (settings b) n T)

theorem parseFile_makes {files : Files} (hw : FilesWF files) {o : Orders} (ho : OrdersOK o) (fuel : Nat) {visited loc : List Str}
    {p : Str} {r : ParseResult} (h : parseFile files o fuel visited loc p = .ok r) (full : Str) (T' : Task) :
    r.tasks.get? full = some T' ↔ Makes files p full T' := by
  induction fuel generalizing visited loc p r full T' with
  | zero => cases h
  | succ fuel ih =>
    rw [parseFile] at h
    by_cases hv : p ∈ visited
    · rw [if_pos hv] at h; cases h
    · rw [if_neg hv] at h
      cases hf : files.get? p with
      | none => rw [hf] at h; cases h
      | some ob =>
        cases ob with
        | none => rw [hf] at h; cases h
        | some bf =>
          rw [hf] at h
          dsimp only at h
          generalize hown : (bf.tasks.map fun q => (q.1, ({ q.2 with name := q.1, sourcePath := p } : Task))) = own at h
          cases hl : includeLoop o loc p (parseFile files o fuel (p :: visited)) (o.incs loc bf.includes) own with
          | error e => rw [hl] at h; cases h
          | ok t =>
            rw [hl] at h
            cases h
            obtain ⟨w1, w2, -, -, -⟩ := hw p bf hf
            obtain ⟨l1, l2, l3⟩ := includeLoop_ok hl
            have hperm := (ho loc).1 bf.includes
            have hownwf : GoMap.WF own := by
              rw [← hown]
              unfold GoMap.WF GoMap.keys at w1 ⊢
              rw [List.map_map]
              exact w1
            have htwf := l3 hownwf
            show GoMap.get? t full = some T' ↔ _
            rw [GoMap.get?_iff_mem htwf, l2, List.mem_append, List.mem_flatMap]
            constructor
            · rintro (hm | ⟨⟨ns, inc⟩, hm, hq⟩)
              · rw [← hown] at hm
                simp only [List.mem_map, Prod.exists, Prod.mk.injEq] at hm
                obtain ⟨a, T, hm, rfl, rfl⟩ := hm
                exact .own hf (GoMap.get?_of_mem w1 hm)
              · obtain ⟨r, hr⟩ := l1 _ hm
                unfold added at hq
                dsimp only at hq hr
                rw [hr] at hq
                unfold entries at hq
                simp only [List.mem_map, Prod.exists, Prod.mk.injEq] at hq
                obtain ⟨name, T, hT, rfl, rfl⟩ := hq
                have hpt := (ho (loc ++ [ns])).2.1 r.tasks
                obtain ⟨-, hto, b, hb, hset⟩ := parseFile_ok hw ho _ hr
                rw [includedTask_settings hset]
                exact .inc ⟨bf, inc, hf, GoMap.get?_of_mem w2 (hperm.subset hm), rfl⟩ hb
                  ((ih hr _ _).mp (GoMap.get?_of_mem hto.wf (hpt.subset hT)))
            · intro hm
              cases hm with
              | own hf' ht =>
                rw [hf] at hf'; cases hf'
                left
                rw [← hown]
                exact List.mem_map.mpr ⟨_, GoMap.mem_of_get? ht, rfl⟩
              | @inc _ ns q b n T hi hb hm =>
                right
                obtain ⟨bf', inc, hf', hg, rfl⟩ := hi
                rw [hf] at hf'; cases hf'
                have hmem := hperm.symm.subset (GoMap.mem_of_get? hg)
                obtain ⟨r, hr⟩ := l1 _ hmem
                obtain ⟨-, -, b', hb', hset⟩ := parseFile_ok hw ho _ hr
                rw [hb] at hb'; cases hb'
                refine ⟨(ns, inc), hmem, ?_⟩
                unfold added
                dsimp only
                dsimp only at hr
                rw [hr]
                unfold entries
                have hpt := (ho (loc ++ [ns])).2.1 r.tasks
                rw [← includedTask_settings hset]
                exact List.mem_map.mpr ⟨(n, T), hpt.symm.subset (GoMap.mem_of_get? ((ih hr _ _).mpr hm)), rfl⟩

/-- two ways of loading give the same map -/
theorem parseFile_perm {files : Files} (hw : FilesWF files) {o o' : Orders} (ho : OrdersOK o) (ho' : OrdersOK o') {fuel fuel' : Nat}
    {vis vis' loc loc' : List Str} {p : Str} {r r' : ParseResult} (h : parseFile files o fuel vis loc p = .ok r)
    (h' : parseFile files o' fuel' vis' loc' p = .ok r') : r.tasks.Perm r'.tasks := by
  refine perm_of_get? (parseFile_ok hw ho _ h).2.1.wf (parseFile_ok hw ho' _ h').2.1.wf (fun k => ?_)
  apply Option.ext
  intro T
  rw [parseFile_makes hw ho _ h, parseFile_makes hw ho' _ h']

/-! ### When validation finds nothing -/

theorem validateAll_nil {tasks o1 o2 o3 o4 : TaskMap} (grow : Nat → Nat) (hwf : tasks.WF) (h1 : o1.Perm tasks) (h2 : o2.Perm tasks)
    (h3 : o3.Perm tasks) (h4 : o4.Perm tasks) :
    validateAll grow o1 o2 o3 o4 tasks = [] ↔
      (∀ a b, Refers tasks a b → ∃ T, tasks.get? b = some T) ∧ (¬ ∃ n, Reaches tasks n n) ∧ Unambiguous tasks := by
  constructor
  · intro h
    refine ⟨fun a b hab => C36_no_dangling hwf h1 h2 h hab, ?_, ?_⟩
    · unfold validateAll at h
      simp only [List.append_eq_nil_iff] at h
      exact (C37_cycles_exact h3).mp h.1.2
    · unfold validateAll at h
      simp only [List.append_eq_nil_iff] at h
      exact (C39_unambiguous hwf h4).mp h.2
  · rintro ⟨hd, hc, hu⟩
    have hc' := (C37_cycles_exact (grow := grow) h3).mpr hc
    have hu' := (C39_unambiguous hwf h4).mpr hu
    have hno : ∀ a b, VErr.notFound b a ∉ validateAll grow o1 o2 o3 o4 tasks := by
      intro a b hab
      obtain ⟨hr, hn⟩ := (C36_missing_task hwf h1 h2 a b).mp hab
      obtain ⟨T, hT⟩ := hd a b hr
      rw [hn] at hT; cases hT
    have hform : ∀ e ∈ validateAll grow o1 o2 o3 o4 tasks, ∃ a b, e = .notFound b a := by
      intro e he
      unfold validateAll at he
      rw [hc', hu'] at he
      simp only [List.append_nil, List.mem_append] at he
      rcases he with h | h
      · unfold validateDependencies at h
        obtain ⟨⟨n, T⟩, hq, h⟩ := List.mem_flatMap.mp h
        obtain ⟨d, hd, h⟩ := List.mem_flatMap.mp h
        split at h
        · cases h
        · exact ⟨_, _, List.mem_singleton.mp h⟩
      · unfold validateRunTaskRefs at h
        obtain ⟨⟨n, T⟩, hq, h⟩ := List.mem_flatMap.mp h
        obtain ⟨d, hd, hh, he⟩ := (taskRefs_spec _ _ _ _).mp h
        exact ⟨_, _, he⟩
    refine List.eq_nil_iff_forall_not_mem.mpr (fun e he => ?_)
    obtain ⟨a, b, rfl⟩ := hform e he
    exact hno a b he

/-! ### The map of aliases -/

theorem WF_foldl_alias (l : List (Str × Str)) (acc : GoMap Str) (h : acc.WF) :
    (l.foldl (fun (acc : GoMap Str) q => acc.set q.1 q.2) acc).WF := by
  induction l generalizing acc with
  | nil => exact h
  | cons q l ih => exact ih _ (GoMap.WF_set h _ _)

theorem aliasMap_perm {tasks order order' : TaskMap} (hwf : tasks.WF) (h : validateAliases tasks tasks = []) (ho : order.Perm tasks)
    (ho' : order'.Perm tasks) : (buildAliasMap order).WF ∧ (buildAliasMap order).Perm (buildAliasMap order') := by
  have hu := (C39_unambiguous hwf (List.Perm.refl _)).mp h
  have key : ∀ {o : TaskMap}, o.Perm tasks → (buildAliasMap o).WF ∧ ∀ x,
      (∀ n, (x, n) ∈ declarations o → (buildAliasMap o).get? x = some n) ∧
      ((∀ n, (x, n) ∉ declarations o) → (buildAliasMap o).get? x = none) := by
    intro o ho
    have h' : validateAliases o tasks = [] := (C39_unambiguous hwf ho).mpr hu
    unfold validateAliases at h'
    rw [aliasesLoop_spec] at h'
    rw [buildAliasMap_eq]
    exact ⟨WF_foldl_alias _ _ (by simp [GoMap.WF, GoMap.keys]), fun x => get?_foldl_alias (declarations o) h'.2 [] x⟩
  obtain ⟨h1, h2⟩ := key ho
  obtain ⟨h3, h4⟩ := key ho'
  have hp : (declarations order).Perm (declarations order') := by
    unfold declarations
    exact List.Perm.flatMap_right _ (ho.trans ho'.symm)
  refine ⟨h1, perm_of_get? h1 h3 (fun x => ?_)⟩
  by_cases hx : ∃ n, (x, n) ∈ declarations order
  · obtain ⟨n, hn⟩ := hx
    rw [(h2 x).1 n hn, (h4 x).1 n (hp.subset hn)]
  · have hx' : ∀ n, (x, n) ∉ declarations order := fun n hn => hx ⟨n, hn⟩
    rw [(h2 x).2 hx', (h4 x).2 (fun n hn => hx' n (hp.symm.subset hn))]

theorem aliasMap_keys {tasks order : TaskMap} (hwf : tasks.WF) (h : validateAliases tasks tasks = []) (ho : order.Perm tasks) (k : Str) :
    k ∈ (buildAliasMap order).keys ↔ ∃ n T, tasks.get? n = some T ∧ k ∈ declared T := by
  have hu := (C39_unambiguous hwf (List.Perm.refl _)).mp h
  have h' : validateAliases order tasks = [] := (C39_unambiguous hwf ho).mpr hu
  unfold validateAliases at h'
  rw [aliasesLoop_spec] at h'
  obtain ⟨f1, f2⟩ := get?_foldl_alias (declarations order) h'.2 [] k
  have hdecl : ∀ n, (k, n) ∈ declarations order ↔ ∃ T, tasks.get? n = some T ∧ k ∈ declared T := by
    intro n
    unfold declarations
    simp only [List.mem_flatMap, Prod.exists, List.mem_map, Prod.mk.injEq]
    constructor
    · rintro ⟨m, T, hm, y, hy, rfl, rfl⟩
      exact ⟨T, GoMap.get?_of_mem hwf (ho.subset hm), hy⟩
    · rintro ⟨T, hT, ha⟩
      exact ⟨n, T, ho.symm.subset (GoMap.mem_of_get? hT), k, ha, rfl, rfl⟩
  rw [GoMap.mem_keys_iff, buildAliasMap_eq]
  constructor
  · intro hk
    by_contra hn
    refine hk (f2 fun n hm => hn ?_)
    obtain ⟨T, hT⟩ := (hdecl n).mp hm
    exact ⟨n, T, hT⟩
  · rintro ⟨n, T, hT⟩
    rw [f1 n ((hdecl n).mpr ⟨T, hT⟩)]
    simp

theorem trimSpace_ne {p : Str} (h : p.head? = some '/') : trimSpace p ≠ [] := by
  cases p with
  | nil => cases h
  | cons c p =>
    cases h
    unfold trimSpace trimFunc
    rw [List.dropWhile_cons_of_neg (by decide)]
    intro h0
    have h1 := List.reverse_eq_nil_iff.mp h0
    rw [List.dropWhile_eq_nil_iff] at h1
    have := h1 '/' (by simp)
    revert this; decide

end Bab
