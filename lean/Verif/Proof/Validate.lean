import Verif.Model.Validate
import Verif.Spec.Validate
import Verif.Proof.GoMap
import Mathlib.Tactic.ByContra
/-
Validation: references, cycles, aliases.
-/

namespace Bab
open Spec

/-! ### Slices -/

/-- a slice lies inside its array -/
def Slice.Valid (s : Slice) (h : Heap) : Prop := ∃ a, h[s.arr]? = some a ∧ s.len ≤ a.length

/-- from `h` to `h'` only the part of the array of `s` behind `s`, and new arrays, have changed -/
def Keeps (s : Slice) (h h' : Heap) : Prop :=
  h.length ≤ h'.length ∧ ∀ i a, h[i]? = some a → ∃ b, h'[i]? = some b ∧ b.length = a.length ∧
    ∀ p, (i ≠ s.arr ∨ p < s.len) → b[p]? = a[p]?

theorem Keeps.refl (s : Slice) (h : Heap) : Keeps s h h :=
  ⟨Nat.le_refl _, fun _ a ha => ⟨a, ha, rfl, fun _ _ => rfl⟩⟩

/-- slices under `s`: longer ones in the same array, or in an array that is new -/
def Under (s : Slice) (h : Heap) (s' : Slice) : Prop := (s'.arr = s.arr ∧ s.len ≤ s'.len) ∨ h.length ≤ s'.arr

theorem Keeps.trans {s s' : Slice} {h h1 h2 : Heap} (k1 : Keeps s h h1) (k2 : Keeps s' h1 h2) (u : Under s h s') :
    Keeps s h h2 := by
  refine ⟨Nat.le_trans k1.1 k2.1, fun i a ha => ?_⟩
  obtain ⟨b, hb, hl, hp⟩ := k1.2 i a ha
  obtain ⟨d, hd, hl2, hp2⟩ := k2.2 i b hb
  refine ⟨d, hd, by omega, fun p hc => ?_⟩
  rw [hp2 p, hp p hc]
  have hi : i < h.length := by
    rcases Nat.lt_or_ge i h.length with h' | h'
    · exact h'
    · rw [List.getElem?_eq_none h'] at ha; cases ha
  rcases u with ⟨u1, u2⟩ | u
  · rcases hc with hc | hc
    · left; omega
    · right; omega
  · left; omega

theorem Slice.read_keeps {s : Slice} {h h' : Heap} (hv : s.Valid h) (k : Keeps s h h') :
    s.read h' = s.read h ∧ s.Valid h' := by
  obtain ⟨a, ha, hl⟩ := hv
  obtain ⟨b, hb, hbl, hp⟩ := k.2 _ _ ha
  refine ⟨?_, b, hb, by omega⟩
  unfold Slice.read
  rw [ha, hb]
  simp only [Option.getD_some]
  apply List.ext_getElem?
  intro i
  rw [List.getElem?_take, List.getElem?_take]
  split
  · rename_i hi; exact hp i (Or.inr hi)
  · rfl

theorem Slice.append_spec (grow : Nat → Nat) {s : Slice} {h : Heap} (hv : s.Valid h) (x : Str) :
    (s.append grow x h).1.Valid (s.append grow x h).2 ∧
    (s.append grow x h).1.read (s.append grow x h).2 = s.read h ++ [x] ∧
    Keeps s h (s.append grow x h).2 ∧ Under s h (s.append grow x h).1 := by
  obtain ⟨a, ha, hl⟩ := hv
  have hi : s.arr < h.length := by
    rcases Nat.lt_or_ge s.arr h.length with h' | h'
    · exact h'
    · rw [List.getElem?_eq_none h'] at ha; cases ha
  unfold Slice.append Slice.read
  simp only [ha, Option.getD_some]
  split
  · rename_i hlt
    refine ⟨⟨a.set s.len x, by simp [hi], by simp; omega⟩, ?_, ⟨by simp, fun i b hb => ?_⟩, Or.inl ⟨rfl, by simp⟩⟩
    · simp only [List.getElem?_set_self hi, Option.getD_some]
      apply List.ext_getElem?
      intro i
      rw [List.getElem?_take, List.getElem?_append]
      simp only [List.length_take, List.getElem?_take]
      by_cases h1 : i < s.len
      · rw [if_pos (by omega), if_pos (by omega), if_pos h1, List.getElem?_set_ne (by omega)]
      · by_cases h2 : i = s.len
        · subst h2
          rw [if_pos (by omega), if_neg (by omega), List.getElem?_set_self hlt]
          simp [Nat.min_eq_left hl]
        · rw [if_neg (by omega), if_neg (by omega)]
          rw [List.getElem?_eq_none]
          simp; omega
    · by_cases hie : i = s.arr
      · subst hie
        rw [ha] at hb; cases hb
        refine ⟨_, List.getElem?_set_self hi, by simp, fun p hp => ?_⟩
        rw [List.getElem?_set_ne]
        rcases hp with hp | hp
        · exact absurd rfl hp
        · omega
      · exact ⟨b, by rw [List.getElem?_set_ne (Ne.symm hie)]; exact hb, rfl, fun _ _ => rfl⟩
  · rename_i hge
    have hle : s.len = a.length := by omega
    refine ⟨⟨_, List.getElem?_concat_length, by simp; omega⟩, ?_, ⟨by simp, fun i b hb => ?_⟩, Or.inr (by simp)⟩
    · simp only [List.getElem?_concat_length, Option.getD_some]
      rw [hle, List.take_length]
      have : a ++ x :: List.replicate (grow a.length - a.length - 1) [] = (a ++ [x]) ++ List.replicate (grow a.length - a.length - 1) [] := by simp
      rw [this, List.take_append_of_le_length (by simp)]
      rw [List.take_of_length_le (by simp)]
    · have hib : i < h.length := by
        rcases Nat.lt_or_ge i h.length with h' | h'
        · exact h'
        · rw [List.getElem?_eq_none h'] at hb; cases hb
      exact ⟨b, by rw [List.getElem?_append_left hib]; exact hb, rfl, fun _ _ => rfl⟩


/-! ### Cycles -/

/-- a list of names in which every existing task that a name refers to comes later -/
def CallTopo (tasks : TaskMap) : List Str → Prop
  | [] => True
  | u :: r => u ∉ r ∧ (∀ v, Refers tasks u v → tasks.has v = true → v ∈ r) ∧ CallTopo tasks r

/-- nothing reported yet; the names on the recursion stack are those of the path; the names that are
finished can be listed with references pointing to later ones -/
def Clean (tasks : TaskMap) (path : List Str) (st : CycleState) : Prop :=
  st.reports = [] ∧ (∀ x, x ∈ st.recStack ↔ x ∈ path) ∧ (∀ x ∈ path, x ∈ st.visited) ∧
  ∃ L, (∀ x, x ∈ L ↔ x ∈ st.visited ∧ x ∉ st.recStack) ∧ CallTopo tasks L

/-- the first report was about a real cycle -/
def Real (tasks : TaskMap) (st : CycleState) : Prop :=
  ∃ r rest, st.reports = r :: rest ∧ IsLasso tasks r.atReport

/-- the names of tasks not visited yet -/
def unvisited (tasks : TaskMap) (st : CycleState) : Nat := (tasks.keys.filter (fun k => k ∉ st.visited)).length

theorem filter_length_le {α : Type} {p q : α → Bool} {l : List α} (h : ∀ x, p x = true → q x = true) :
    (l.filter p).length ≤ (l.filter q).length := by
  rw [← List.countP_eq_length_filter, ← List.countP_eq_length_filter]
  exact List.countP_mono_left (fun x _ => h x)

/-- what all parts of the search guarantee -/
structure Goes (tasks : TaskMap) (chain : Slice) (path : List Str) (st st' : CycleState) : Prop where
  keeps : Keeps chain st.heap st'.heap
  reps : ∃ more, st'.reports = st.reports ++ more
  vis : ∀ x ∈ st.visited, x ∈ st'.visited
  fuel : st'.fuel = st.fuel
  clean : Clean tasks path st → Clean tasks path st' ∨ Real tasks st'
  paths : (∀ r ∈ st.reports, IsPath tasks r.atReport) → ∀ r ∈ st'.reports, IsPath tasks r.atReport

theorem Real.mono {tasks : TaskMap} {st st' : CycleState} (h : Real tasks st) (hr : ∃ more, st'.reports = st.reports ++ more) :
    Real tasks st' := by
  obtain ⟨r, rest, h1, h2⟩ := h
  obtain ⟨more, h3⟩ := hr
  exact ⟨r, rest ++ more, by rw [h3, h1]; rfl, h2⟩

theorem Goes.refl (tasks : TaskMap) (chain : Slice) (path : List Str) (st : CycleState) : Goes tasks chain path st st :=
  ⟨Keeps.refl _ _, ⟨[], by simp⟩, fun _ h => h, rfl, Or.inl, fun h => h⟩

theorem Goes.trans {tasks : TaskMap} {chain : Slice} {path : List Str} {a b d : CycleState} (h1 : Goes tasks chain path a b)
    (h2 : Goes tasks chain path b d) : Goes tasks chain path a d where
  keeps := h1.keeps.trans h2.keeps (Or.inl ⟨rfl, Nat.le_refl _⟩)
  reps := by
    obtain ⟨x, hx⟩ := h1.reps
    obtain ⟨y, hy⟩ := h2.reps
    exact ⟨x ++ y, by rw [hy, hx, List.append_assoc]⟩
  vis := fun x hx => h2.vis _ (h1.vis _ hx)
  fuel := by rw [h2.fuel, h1.fuel]
  clean := fun hc => by
    rcases h1.clean hc with h | h
    · exact h2.clean h
    · exact Or.inr (h.mono h2.reps)
  paths := fun h => h2.paths (h1.paths h)

theorem Goes.unvisited {tasks : TaskMap} {chain : Slice} {path : List Str} {a b : CycleState}
    (h : Goes tasks chain path a b) : unvisited tasks b ≤ unvisited tasks a := by
  unfold Bab.unvisited
  refine filter_length_le ?_
  intro x hx
  simp only [decide_eq_true_eq] at hx ⊢
  exact fun hxa => hx (h.vis x hxa)

theorem isPath_snoc {tasks : TaskMap} {p : List Str} {a b : Str} (h : IsPath tasks (p ++ [a])) (hr : Refers tasks a b) :
    IsPath tasks (p ++ [a] ++ [b]) := by
  induction p with
  | nil => exact ⟨hr, trivial⟩
  | cons x p ih =>
    cases p with
    | nil => exact ⟨h.1, hr, trivial⟩
    | cons y p => exact ⟨h.1, ih h.2⟩

/-- reporting a name that is on the path -/
theorem goes_report {tasks : TaskMap} (grow : Nat → Nat) {chain : Slice} {p : List Str} {a n : Str} {st : CycleState}
    (hv : chain.Valid st.heap) (hr : chain.read st.heap = p ++ [a]) (hp : IsPath tasks (p ++ [a])) (href : Refers tasks a n)
    (hn : n ∈ st.recStack) :
    Goes tasks chain (p ++ [a]) st (st.report grow chain n) ∧
    (Clean tasks (p ++ [a]) st → Real tasks (st.report grow chain n)) := by
  obtain ⟨h1, h2, h3, h4⟩ := Slice.append_spec grow hv n
  have hreal : Clean tasks (p ++ [a]) st → Real tasks (st.report grow chain n) := by
    intro hc
    refine ⟨⟨(chain.append grow n st.heap).1, (chain.append grow n st.heap).1.read (chain.append grow n st.heap).2⟩, [], ?_, ?_⟩
    · unfold CycleState.report
      rw [hc.1]; rfl
    · dsimp only
      rw [h2, hr]
      exact ⟨isPath_snoc hp href, p ++ [a], n, rfl, (hc.2.1 n).mp hn⟩
  refine ⟨⟨h3, ⟨_, rfl⟩, fun _ h => h, rfl, fun hc => Or.inr (hreal hc), fun h r hr' => ?_⟩, hreal⟩
  rcases List.mem_append.mp hr' with hm | hm
  · exact h r hm
  · rw [List.mem_singleton.mp hm]
    dsimp only
    rw [h2, hr]
    exact isPath_snoc hp href

/-- what the recursive call guarantees -/
def DfsOk (tasks : TaskMap) (fuel : Nat) (dfs : Str → Slice → CycleState → CycleState) : Prop :=
  ∀ name chain p st, chain.Valid st.heap → chain.read st.heap = p → IsPath tasks (p ++ [name]) →
    tasks.has name = true → name ∉ st.visited → unvisited tasks st ≤ fuel →
    Goes tasks chain p st (dfs name chain st) ∧
    (Clean tasks p (dfs name chain st) → name ∈ (dfs name chain st).visited)

/-- the name is finished -/
def Finished (st : CycleState) (n : Str) : Prop := n ∈ st.visited ∧ n ∉ st.recStack

theorem Finished.mono {tasks : TaskMap} {chain : Slice} {p : List Str} {st st' : CycleState} {n : Str} (h : Finished st n)
    (hg : Goes tasks chain p st st') (hc : Clean tasks p st) (hc' : Clean tasks p st') : Finished st' n := by
  refine ⟨hg.vis _ h.1, fun hn => h.2 ?_⟩
  rw [hc.2.1]
  exact (hc'.2.1 n).mp hn

section
variable {tasks : TaskMap} {grow : Nat → Nat} {fuel : Nat} {dfs : Str → Slice → CycleState → CycleState}

/-- one reference: reported, visited or skipped -/
theorem goes_ref (hd : DfsOk tasks fuel dfs) {chain : Slice} {p : List Str} {a n : Str} {st : CycleState}
    (hv : chain.Valid st.heap) (hr : chain.read st.heap = p ++ [a]) (hp : IsPath tasks (p ++ [a])) (href : Refers tasks a n)
    (hu : unvisited tasks st ≤ fuel) (hn : n ∉ st.recStack) (hv' : n ∉ st.visited) (hh : tasks.has n = true) :
    Goes tasks chain (p ++ [a]) st (dfs n chain st) ∧
    (Clean tasks (p ++ [a]) st → Clean tasks (p ++ [a]) (dfs n chain st) → Finished (dfs n chain st) n) := by
  obtain ⟨h1, h2⟩ := hd n chain (p ++ [a]) st hv hr (isPath_snoc hp href) hh hv' hu
  refine ⟨h1, fun hc hc' => ⟨h2 hc', fun hx => hn ?_⟩⟩
  rw [hc.2.1]
  exact (hc'.2.1 n).mp hx

theorem goes_deps (hd : DfsOk tasks fuel dfs) {chain : Slice} {p : List Str} {a : Str} (deps : List Str) {st : CycleState}
    (hv : chain.Valid st.heap) (hr : chain.read st.heap = p ++ [a]) (hp : IsPath tasks (p ++ [a]))
    (href : ∀ n ∈ deps, Refers tasks a n) (hu : unvisited tasks st ≤ fuel) :
    Goes tasks chain (p ++ [a]) st (checkDeps tasks grow dfs chain deps st).2 ∧
    (Clean tasks (p ++ [a]) st → (checkDeps tasks grow dfs chain deps st).1 = true →
      Real tasks (checkDeps tasks grow dfs chain deps st).2) ∧
    (Clean tasks (p ++ [a]) st → Clean tasks (p ++ [a]) (checkDeps tasks grow dfs chain deps st).2 →
      ∀ n ∈ deps, tasks.has n = true → Finished (checkDeps tasks grow dfs chain deps st).2 n) := by
  induction deps generalizing st with
  | nil => exact ⟨Goes.refl _ _ _ _, fun _ h => (by cases h), fun _ _ n hn => (by cases hn)⟩
  | cons n deps ih =>
    unfold checkDeps
    have hn := href n List.mem_cons_self
    have hrest : ∀ m ∈ deps, Refers tasks a m := fun m hm => href m (List.mem_cons_of_mem _ hm)
    split
    · rename_i hrec
      obtain ⟨g1, g2⟩ := goes_report grow hv hr hp hn hrec
      refine ⟨g1, fun hc _ => g2 hc, fun hc hc' => ?_⟩
      obtain ⟨r, rest, hr', -⟩ := g2 hc
      rw [hc'.1] at hr'; cases hr'
    · rename_i hrec
      split
      · rename_i hvis
        obtain ⟨g1, g2⟩ := goes_ref hd hv hr hp hn hu hrec hvis.1 hvis.2
        obtain ⟨e1, e2⟩ := Slice.read_keeps hv g1.keeps
        obtain ⟨i1, i2, i3⟩ := ih e2 (by rw [e1, hr]) hrest (Nat.le_trans g1.unvisited hu)
        refine ⟨g1.trans i1, fun hc ht => ?_, fun hc hc' m hm hh => ?_⟩
        · rcases g1.clean hc with h | h
          · exact i2 h ht
          · exact h.mono i1.reps
        · have hmid : Clean tasks (p ++ [a]) (dfs n chain st) := by
            rcases g1.clean hc with h | h
            · exact h
            · obtain ⟨r, rest, hr', -⟩ := h.mono i1.reps
              rw [hc'.1] at hr'; cases hr'
          rcases List.mem_cons.mp hm with rfl | hm
          · exact (g2 hc hmid).mono i1 hmid hc'
          · exact i3 hmid hc' m hm hh
      · rename_i hvis
        obtain ⟨i1, i2, i3⟩ := ih hv hr hrest hu
        refine ⟨i1, i2, fun hc hc' m hm hh => ?_⟩
        rcases List.mem_cons.mp hm with rfl | hm
        · refine Finished.mono ⟨?_, hrec⟩ i1 hc hc'
          by_contra hx; exact hvis ⟨hx, hh⟩
        · exact i3 hc hc' m hm hh

mutual
theorem goes_item (hd : DfsOk tasks fuel dfs) {chain : Slice} {p : List Str} {a : Str} (item : RunItem) {st : CycleState}
    (hv : chain.Valid st.heap) (hr : chain.read st.heap = p ++ [a]) (hp : IsPath tasks (p ++ [a]))
    (href : ∀ n, CallsIn n [item] → Refers tasks a n) (hu : unvisited tasks st ≤ fuel) :
    Goes tasks chain (p ++ [a]) st (checkItem tasks grow dfs chain item st).2 ∧
    (Clean tasks (p ++ [a]) st → (checkItem tasks grow dfs chain item st).1 = true →
      Real tasks (checkItem tasks grow dfs chain item st).2) ∧
    (Clean tasks (p ++ [a]) st → Clean tasks (p ++ [a]) (checkItem tasks grow dfs chain item st).2 →
      ∀ n, CallsIn n [item] → tasks.has n = true → Finished (checkItem tasks grow dfs chain item st).2 n) := by
  cases item with
  | command v =>
    exact ⟨Goes.refl _ _ _ _, fun _ h => (by simp [checkItem] at h), fun _ _ n hn => (by cases hn with | later h => cases h)⟩
  | log v =>
    exact ⟨Goes.refl _ _ _ _, fun _ h => (by simp [checkItem] at h), fun _ _ n hn => (by cases hn with | later h => cases h)⟩
  | prompt v =>
    exact ⟨Goes.refl _ _ _ _, fun _ h => (by simp [checkItem] at h), fun _ _ n hn => (by cases hn with | later h => cases h)⟩
  | task t =>
    have hn := href t.task (.here rfl)
    have hone : ∀ n, CallsIn n [.task t] → n = t.task := by
      intro n h
      cases h with
      | here h => exact h.symm
      | later h => cases h
    rw [checkItem]
    split
    · rename_i hrec
      obtain ⟨g1, g2⟩ := goes_report grow hv hr hp hn hrec
      refine ⟨g1, fun hc _ => g2 hc, fun hc hc' => ?_⟩
      obtain ⟨r, rest, hr', -⟩ := g2 hc
      rw [hc'.1] at hr'; cases hr'
    · rename_i hrec
      split
      · rename_i hvis
        obtain ⟨g1, g2⟩ := goes_ref hd hv hr hp hn hu hrec hvis.1 hvis.2
        refine ⟨g1, fun _ h => (by cases h), fun hc hc' m hm hh => ?_⟩
        rw [hone m hm]
        exact g2 hc hc'
      · rename_i hvis
        refine ⟨Goes.refl _ _ _ _, fun _ h => (by cases h), fun hc hc' m hm hh => ?_⟩
        have hm := hone m hm
        subst hm
        refine ⟨?_, hrec⟩
        by_contra hx; exact hvis ⟨hx, hh⟩
  | parallel items labels mode lim color s o pl w ln =>
    obtain ⟨i1, i2⟩ := goes_items hd items hv hr hp (fun n h => href n (.block h)) hu
    rw [checkItem]
    refine ⟨i1, fun _ h => (by cases h), fun hc hc' m hm hh => ?_⟩
    cases hm with
    | block h => exact i2 hc hc' m h hh
    | later h => cases h
theorem goes_items (hd : DfsOk tasks fuel dfs) {chain : Slice} {p : List Str} {a : Str} (items : List RunItem) {st : CycleState}
    (hv : chain.Valid st.heap) (hr : chain.read st.heap = p ++ [a]) (hp : IsPath tasks (p ++ [a]))
    (href : ∀ n, CallsIn n items → Refers tasks a n) (hu : unvisited tasks st ≤ fuel) :
    Goes tasks chain (p ++ [a]) st (checkItems tasks grow dfs chain items st) ∧
    (Clean tasks (p ++ [a]) st → Clean tasks (p ++ [a]) (checkItems tasks grow dfs chain items st) →
      ∀ n, CallsIn n items → tasks.has n = true → Finished (checkItems tasks grow dfs chain items st) n) := by
  match items with
  | [] => 
    rw [checkItems]
    exact ⟨Goes.refl _ _ _ _, fun _ _ n hn => (by cases hn)⟩
  | item :: items =>
    have hfst : ∀ n, CallsIn n [item] → Refers tasks a n := by
      intro n h
      refine href n ?_
      cases h with
      | here h => exact .here h
      | block h => exact .block h
      | later h => cases h
    obtain ⟨g1, g2, g3⟩ := goes_item hd item hv hr hp hfst hu
    rw [checkItems]
    split
    · rename_i ht
      refine ⟨g1, fun hc hc' => ?_⟩
      obtain ⟨r, rest, hr', -⟩ := g2 hc ht
      rw [hc'.1] at hr'; cases hr'
    · obtain ⟨e1, e2⟩ := Slice.read_keeps hv g1.keeps
      obtain ⟨i1, i2⟩ := goes_items hd items e2 (by rw [e1, hr]) hp (fun n h => href n (.later h))
        (Nat.le_trans g1.unvisited hu)
      refine ⟨g1.trans i1, fun hc hc' n hn hh => ?_⟩
      have hmid : Clean tasks (p ++ [a]) (checkItem tasks grow dfs chain item st).2 := by
        rcases g1.clean hc with h | h
        · exact h
        · obtain ⟨r, rest, hr', -⟩ := h.mono i1.reps
          rw [hc'.1] at hr'; cases hr'
      have hcase : CallsIn n [item] ∨ CallsIn n items := by
        cases hn with
        | here h => exact Or.inl (.here h)
        | block h => exact Or.inl (.block h)
        | later h => exact Or.inr h
      rcases hcase with h | h
      · exact (g3 hc hmid n h hh).mono i1 hmid hc'
      · exact i2 hmid hc' n h hh
end

end

theorem unvisited_lt {tasks : TaskMap} {st : CycleState} {n : Str} (hh : tasks.has n = true) (hn : n ∉ st.visited)
    {v : List Str} (hv : v = n :: st.visited) :
    (tasks.keys.filter (fun k => k ∉ v)).length < unvisited tasks st := by
  subst hv
  unfold unvisited
  have hmem : n ∈ tasks.keys := by
    rw [GoMap.mem_keys_iff]
    intro h
    simp [GoMap.has, h] at hh
  generalize tasks.keys = l at hmem ⊢
  induction l with
  | nil => cases hmem
  | cons k ks ih =>
    have hle : ∀ ks : List Str, (ks.filter (fun k => decide (k ∉ n :: st.visited))).length ≤ (ks.filter (fun k => decide (k ∉ st.visited))).length := by
      intro ks
      refine filter_length_le ?_
      intro x hx
      simp only [List.mem_cons, not_or, decide_eq_true_eq] at hx ⊢
      exact hx.2
    by_cases hk : k = n
    · subst hk
      rw [List.filter_cons_of_neg (by simp), List.filter_cons_of_pos (by simpa using hn)]
      have := hle ks
      simp only [List.length_cons]; omega
    · have hm : n ∈ ks := by
        rcases List.mem_cons.mp hmem with h | h
        · exact absurd h.symm hk
        · exact h
      have := ih hm
      by_cases hkv : k ∈ st.visited
      · rw [List.filter_cons_of_neg (by simp [hkv]), List.filter_cons_of_neg (by simp [hkv])]; exact this
      · rw [List.filter_cons_of_pos (by simp [hkv, hk]), List.filter_cons_of_pos (by simp [hkv])]
        simp only [List.length_cons]; omega

theorem dfs_ok (tasks : TaskMap) (grow : Nat → Nat) (fuel : Nat) : DfsOk tasks fuel (cycleDfs tasks grow fuel) := by
  induction fuel with
  | zero =>
    intro name chain p st hv hr hp hh hn hu
    have := unvisited_lt hh hn (v := name :: st.visited) rfl
    omega
  | succ fuel ih =>
    intro name chain p st hv hr hp hh hn hu
    obtain ⟨a1, a2, a3, a4⟩ := Slice.append_spec grow hv name
    rw [hr] at a2
    rw [cycleDfs]
    dsimp only
    obtain ⟨T, hT⟩ : ∃ T, tasks.get? name = some T := by
      cases h : tasks.get? name with
      | none => simp [GoMap.has, h] at hh
      | some T => exact ⟨T, rfl⟩
    rw [hT]
    dsimp only
    generalize hs1 : ({ st with visited := name :: st.visited, recStack := name :: st.recStack, heap := (chain.append grow name st.heap).2 } : CycleState) = st1
    have hu1 : unvisited tasks st1 ≤ fuel := by
      have := unvisited_lt hh hn (v := st1.visited) (by rw [← hs1])
      unfold unvisited at this hu ⊢; omega
    have hv1 : (chain.append grow name st.heap).1.Valid st1.heap := by rw [← hs1]; exact a1
    have hr1 : (chain.append grow name st.heap).1.read st1.heap = p ++ [name] := by rw [← hs1]; exact a2
    have hclean1 : Clean tasks p st → Clean tasks (p ++ [name]) st1 := by
      rintro ⟨c1, c2, c3, L, c4, c5⟩
      subst hs1
      refine ⟨c1, fun x => ?_, fun x hx => ?_, L, fun x => ?_, c5⟩
      · simp only [List.mem_cons, c2, List.mem_append, List.not_mem_nil, or_false]
        exact or_comm
      · simp only [List.mem_append, List.mem_singleton] at hx
        rcases hx with hx | rfl
        · exact List.mem_cons_of_mem _ (c3 x hx)
        · exact List.mem_cons_self
      · simp only [c4, List.mem_cons, not_or]
        constructor
        · rintro ⟨h1, h2⟩
          exact ⟨Or.inr h1, fun h => hn (h ▸ h1), h2⟩
        · rintro ⟨h1 | h1, h2, h3⟩
          · exact absurd h1 h2
          · exact ⟨h1, h3⟩
    obtain ⟨d1, d2, d3⟩ := goes_deps ih (grow := grow) T.deps hv1 hr1 hp (fun n hn => ⟨T, hT, Or.inl hn⟩) hu1
    generalize hds : checkDeps tasks grow (cycleDfs tasks grow fuel) (chain.append grow name st.heap).1 T.deps st1 = ds at d1 d2 d3
    have k1 : Keeps chain st.heap st1.heap := by rw [← hs1]; exact a3
    have hrep1 : st1.reports = st.reports := by rw [← hs1]
    have hfuel1 : st1.fuel = st.fuel := by rw [← hs1]
    have hvis1 : ∀ x ∈ st.visited, x ∈ st1.visited := by rw [← hs1]; exact fun x hx => List.mem_cons_of_mem _ hx
    have hname1 : name ∈ st1.visited := by rw [← hs1]; exact List.mem_cons_self
    by_cases hret : ds.1 = true
    · rw [if_pos hret]
      refine ⟨⟨k1.trans d1.keeps a4, ?_, fun x hx => d1.vis x (hvis1 x hx), by rw [d1.fuel, hfuel1], fun hc => ?_, fun h => d1.paths (hrep1 ▸ h)⟩, fun _ => d1.vis _ hname1⟩
      · obtain ⟨more, hm⟩ := d1.reps
        exact ⟨more, by rw [hm, hrep1]⟩
      · exact Or.inr (d2 (hclean1 hc) hret)
    · rw [if_neg hret]
      obtain ⟨e1, e2⟩ := Slice.read_keeps hv1 d1.keeps
      obtain ⟨i1, i2⟩ := goes_items ih (grow := grow) T.run e2 (by rw [e1, hr1]) hp (fun n hn => ⟨T, hT, Or.inr hn⟩)
        (Nat.le_trans d1.unvisited hu1)
      generalize his : checkItems tasks grow (cycleDfs tasks grow fuel) (chain.append grow name st.heap).1 T.run ds.2 = st3 at i1 i2
      have g := d1.trans i1
      refine ⟨⟨k1.trans g.keeps a4, ?_, fun x hx => g.vis x (hvis1 x hx), by show st3.fuel = st.fuel; rw [g.fuel, hfuel1], fun hc => ?_, fun h => g.paths (hrep1 ▸ h)⟩, fun _ => g.vis _ hname1⟩
      · obtain ⟨more, hm⟩ := g.reps
        exact ⟨more, by show st3.reports = _; rw [hm, hrep1]⟩
      · have hc1 := hclean1 hc
        rcases g.clean hc1 with h3 | h3
        · left
          have hmid : Clean tasks (p ++ [name]) ds.2 := by
            rcases d1.clean hc1 with h | h
            · exact h
            · obtain ⟨r, rest, hr', -⟩ := h.mono i1.reps
              rw [h3.1] at hr'; cases hr'
          have hsucc : ∀ v, Refers tasks name v → tasks.has v = true → Finished st3 v := by
            rintro v ⟨T', hT', hv⟩ hhv
            rw [hT] at hT'; cases hT'
            rcases hv with hv | hv
            · exact (d3 hc1 hmid v hv hhv).mono i1 hmid h3
            · exact i2 hmid h3 v hv hhv
          obtain ⟨c1, c2, c3, L, c4, c5⟩ := h3
          have hnp : name ∉ p := fun h => hn (hc.2.2.1 name h)
          refine ⟨c1, fun x => ?_, fun x hx => c3 x (by simp [hx]), name :: L, fun x => ?_, ?_, ?_, c5⟩
          · simp only [List.mem_filter, c2, List.mem_append, List.mem_singleton, decide_eq_true_eq]
            constructor
            · rintro ⟨h1 | h1, h2⟩
              · exact h1
              · exact absurd h1 h2
            · intro h
              exact ⟨Or.inl h, fun he => hnp (he ▸ h)⟩
          · simp only [List.mem_cons, c4, List.mem_filter, decide_eq_true_eq, not_and, Decidable.not_not]
            constructor
            · rintro (rfl | ⟨h1, h2⟩)
              · exact ⟨g.vis _ hname1, fun _ => rfl⟩
              · exact ⟨h1, fun h => absurd h h2⟩
            · rintro ⟨h1, h2⟩
              by_cases hx : x = name
              · exact Or.inl hx
              · exact Or.inr ⟨h1, fun h => hx (h2 h)⟩
          · rw [c4, c2]; simp
          · intro v hv hhv
            rw [c4]
            exact hsucc v hv hhv
        · exact Or.inr h3

/-- the loop over all tasks -/
theorem loop_ok (tasks : TaskMap) (grow : Nat → Nat) (rest : TaskMap) (st : CycleState)
    (hrest : ∀ q ∈ rest, tasks.has q.1 = true) (h0 : Slice.Valid .nil st.heap) :
    Goes tasks .nil [] st (cycleLoop tasks grow rest st) ∧
    (Clean tasks [] (cycleLoop tasks grow rest st) → Clean tasks [] st → ∀ q ∈ rest, q.1 ∈ (cycleLoop tasks grow rest st).visited) := by
  induction rest generalizing st with
  | nil => exact ⟨Goes.refl _ _ _ _, fun _ _ q hq => (by cases hq)⟩
  | cons q rest ih =>
    obtain ⟨name, T⟩ := q
    rw [cycleLoop]
    have hrest' : ∀ q ∈ rest, tasks.has q.1 = true := fun q hq => hrest q (List.mem_cons_of_mem _ hq)
    split
    · rename_i hvis
      obtain ⟨i1, i2⟩ := ih st hrest' h0
      refine ⟨i1, fun hc hc' q hq => ?_⟩
      rcases List.mem_cons.mp hq with rfl | hq
      · exact i1.vis _ hvis
      · exact i2 hc hc' q hq
    · rename_i hvis
      have hlen : unvisited tasks st ≤ tasks.length + 1 := by
        unfold unvisited
        have h1 := List.length_filter_le (fun k => decide (k ∉ st.visited)) tasks.keys
        have h2 : tasks.keys.length = List.length tasks := by simp [GoMap.keys]
        omega
      obtain ⟨g1, g2⟩ := dfs_ok tasks grow (tasks.length + 1) name .nil [] st h0 (by simp [Slice.read, Slice.nil]) trivial
        (hrest _ List.mem_cons_self) hvis hlen
      obtain ⟨i1, i2⟩ := ih _ hrest' (Slice.read_keeps h0 g1.keeps).2
      refine ⟨g1.trans i1, fun hc hc' q hq => ?_⟩
      have hmid : Clean tasks [] (cycleDfs tasks grow (tasks.length + 1) name .nil st) := by
        rcases g1.clean hc' with h | h
        · exact h
        · obtain ⟨r, rest, hr', -⟩ := h.mono i1.reps
          rw [hc.1] at hr'; cases hr'
      rcases List.mem_cons.mp hq with rfl | hq
      · exact i1.vis _ (g2 hmid)
      · exact i2 hc hmid q hq

theorem topo_rank {tasks : TaskMap} {L : List Str} (h : CallTopo tasks L) (a b : Str) (ha : a ∈ L) (hab : Refers tasks a b)
    (hb : tasks.has b = true) : (L.dropWhile (· ≠ b)).length < (L.dropWhile (· ≠ a)).length := by
  induction L with
  | nil => cases ha
  | cons u r ih =>
    obtain ⟨h1, h2, h3⟩ := h
    by_cases hua : u = a
    · subst hua
      have hbr := h2 b hab hb
      have hub : u ≠ b := fun h => h1 (h ▸ hbr)
      rw [List.dropWhile_cons_of_pos (by simpa using hub), List.dropWhile_cons_of_neg (by simp)]
      exact Nat.lt_succ_of_le (List.dropWhile_sublist _).length_le
    · have har : a ∈ r := by
        rcases List.mem_cons.mp ha with h | h
        · exact absurd h.symm hua
        · exact h
      have hbr : b ∈ r := by
        clear ih h1 h2 ha
        induction r with
        | nil => cases har
        | cons w r ih' =>
          by_cases hwa : w = a
          · subst hwa; exact List.mem_cons_of_mem _ (h3.2.1 b hab hb)
          · rcases List.mem_cons.mp har with h | h
            · exact absurd h.symm hwa
            · exact List.mem_cons_of_mem _ (ih' h3.2.2 h)
      have hub : u ≠ b := fun h => h1 (h ▸ hbr)
      rw [List.dropWhile_cons_of_pos (by simpa using hub), List.dropWhile_cons_of_pos (by simpa using hua)]
      exact ih h3 har

theorem isPath_reaches {tasks : TaskMap} {a b : Str} {mid : List Str} (h : IsPath tasks (a :: mid ++ [b])) :
    Reaches tasks a b := by
  induction mid generalizing a with
  | nil => exact .one h.1
  | cons x mid ih => exact .more h.1 (ih h.2)

theorem isPath_tail {tasks : TaskMap} {p q : List Str} (h : IsPath tasks (p ++ q)) : IsPath tasks q := by
  induction p with
  | nil => exact h
  | cons x p ih =>
    cases p with
    | nil => cases q with
      | nil => exact trivial
      | cons y q => exact h.2
    | cons y p => exact ih h.2

theorem lasso_reaches {tasks : TaskMap} {chain : List Str} (h : IsLasso tasks chain) : ∃ n ∈ chain, Reaches tasks n n := by
  obtain ⟨hp, before, n, rfl, hn⟩ := h
  obtain ⟨s, t, rfl⟩ := List.append_of_mem hn
  refine ⟨n, by simp, ?_⟩
  rw [List.append_assoc] at hp
  exact isPath_reaches (isPath_tail hp)

theorem rank_reaches {tasks : TaskMap} {rank : Str → Nat}
    (h : ∀ a b, Refers tasks a b → tasks.has b = true → rank b < rank a) {a b : Str} (hr : Reaches tasks a b)
    (hb : tasks.has b = true) : rank b < rank a := by
  induction hr with
  | one h1 => exact h _ _ h1 hb
  | more h1 hr ih =>
    refine Nat.lt_trans (ih hb) (h _ _ h1 ?_)
    cases hr with
    | one h2 => obtain ⟨T, hT, -⟩ := h2; simp [GoMap.has, hT]
    | more h2 _ => obtain ⟨T, hT, -⟩ := h2; simp [GoMap.has, hT]

theorem reaches_has {tasks : TaskMap} {a b : Str} (h : Reaches tasks a b) : tasks.has a = true := by
  cases h with
  | one h2 => obtain ⟨T, hT, -⟩ := h2; simp [GoMap.has, hT]
  | more h2 _ => obtain ⟨T, hT, -⟩ := h2; simp [GoMap.has, hT]

theorem cycleRun_goes (grow : Nat → Nat) {order tasks : TaskMap} (hp : order.Perm tasks) :
    Goes tasks .nil [] { visited := [], recStack := [], heap := .init, reports := [] } (cycleRun grow order tasks) ∧
    (Clean tasks [] (cycleRun grow order tasks) → ∀ n, tasks.has n = true → n ∈ (cycleRun grow order tasks).visited) ∧
    (Clean tasks [] (cycleRun grow order tasks) ∨ Real tasks (cycleRun grow order tasks)) := by
  have h0 : Clean tasks [] { visited := [], recStack := [], heap := .init, reports := [] } :=
    ⟨rfl, fun x => Iff.rfl, fun x hx => (by cases hx), [], fun x => (by simp), trivial⟩
  have hin : ∀ q ∈ order, tasks.has q.1 = true := by
    intro q hq
    rw [GoMap.has_iff, ← GoMap.mem_keys_iff]
    exact List.mem_map.mpr ⟨q, hp.subset hq, rfl⟩
  obtain ⟨g1, g2⟩ := loop_ok tasks grow order { visited := [], recStack := [], heap := .init, reports := [] } hin
    ⟨[], rfl, Nat.le_refl _⟩
  refine ⟨g1, fun hc n hn => ?_, g1.clean h0⟩
  rw [GoMap.has_iff, ← GoMap.mem_keys_iff] at hn
  obtain ⟨q, hq, rfl⟩ := List.mem_map.mp hn
  exact g2 hc h0 q (hp.symm.subset hq)

/-! ### References -/

mutual
theorem taskRef_spec (a : Str) (tasks : TaskMap) (item : RunItem) (e : VErr) :
    e ∈ validateRunItemTaskRef a tasks item ↔ ∃ b, CallsIn b [item] ∧ tasks.has b = false ∧ e = .notFound b a := by
  cases item with
  | command v => simp [validateRunItemTaskRef]; intro b h; cases h with | later h => cases h
  | log v => simp [validateRunItemTaskRef]; intro b h; cases h with | later h => cases h
  | prompt v => simp [validateRunItemTaskRef]; intro b h; cases h with | later h => cases h
  | task t =>
    rw [validateRunItemTaskRef]
    constructor
    · intro h
      split at h
      · cases h
      · rename_i hh
        exact ⟨t.task, .here rfl, by simpa using hh, List.mem_singleton.mp h⟩
    · rintro ⟨b, hb, hh, rfl⟩
      cases hb with
      | here h => subst h; simp [hh]
      | later h => cases h
  | parallel items labels mode lim color s o pl w ln =>
    rw [validateRunItemTaskRef, taskRefs_spec a tasks items e]
    constructor
    · rintro ⟨b, hb, h⟩; exact ⟨b, .block hb, h⟩
    · rintro ⟨b, hb, h⟩
      cases hb with
      | block hb => exact ⟨b, hb, h⟩
      | later hb => cases hb
theorem taskRefs_spec (a : Str) (tasks : TaskMap) (items : List RunItem) (e : VErr) :
    e ∈ validateRunItemTaskRefs a tasks items ↔ ∃ b, CallsIn b items ∧ tasks.has b = false ∧ e = .notFound b a := by
  match items with
  | [] => simp [validateRunItemTaskRefs]; intro b h; cases h
  | item :: items =>
    rw [validateRunItemTaskRefs, List.mem_append, taskRef_spec a tasks item e, taskRefs_spec a tasks items e]
    constructor
    · rintro (⟨b, hb, h⟩ | ⟨b, hb, h⟩)
      · refine ⟨b, ?_, h⟩
        cases hb with
        | here h => exact .here h
        | block h => exact .block h
        | later h => cases h
      · exact ⟨b, .later hb, h⟩
    · rintro ⟨b, hb, h⟩
      cases hb with
      | here hb => exact Or.inl ⟨b, .here hb, h⟩
      | block hb => exact Or.inl ⟨b, .block hb, h⟩
      | later hb => exact Or.inr ⟨b, hb, h⟩
end

/-! ### Aliases -/

/-- aliases with the tasks declaring them, in the order of declaration -/
def declarations (order : TaskMap) : List (Str × Str) :=
  order.flatMap fun (n, T) => (declared T).map fun a => (a, n)

theorem allAliases_filter (T : Task) : T.allAliases.filter (· ≠ []) = declared T := by
  unfold Task.allAliases declared
  by_cases h : T.alias = []
  · rw [if_neg (by simpa using h), List.filter_cons_of_neg (by simp [h])]
  · rw [if_pos h]

theorem aliasLoop_spec (tasks : TaskMap) (name : Str) (as : List Str) (seen : GoMap Str) :
    ((aliasLoop tasks name as seen).1 = [] ↔
      (∀ a ∈ as.filter (· ≠ []), tasks.has a = false ∧ seen.get? a = none) ∧ (as.filter (· ≠ [])).Nodup) ∧
    ((aliasLoop tasks name as seen).1 = [] → ∀ x,
      (aliasLoop tasks name as seen).2.get? x = none ↔ x ∉ as.filter (· ≠ []) ∧ seen.get? x = none) := by
  induction as generalizing seen with
  | nil => simp [aliasLoop]
  | cons a as ih =>
    rw [aliasLoop]
    by_cases ha : a = []
    · rw [if_pos ha, List.filter_cons_of_neg (by simp [ha])]
      exact ih seen
    · rw [if_neg ha, List.filter_cons_of_pos (by simp [ha])]
      by_cases hh : tasks.has a = true
      · rw [if_pos hh]
        refine ⟨⟨fun h => by simp at h, fun h => ?_⟩, fun h => by simp at h⟩
        have := (h.1 a List.mem_cons_self).1
        rw [hh] at this; cases this
      · rw [if_neg hh]
        have hh' : tasks.has a = false := by simpa using hh
        cases hs : seen.get? a with
        | some o =>
          dsimp only
          refine ⟨⟨fun h => by simp at h, fun h => ?_⟩, fun h => by simp at h⟩
          have := (h.1 a List.mem_cons_self).2
          rw [hs] at this; cases this
        | none =>
          dsimp only
          obtain ⟨i1, i2⟩ := ih (seen.set a name)
          have hset : ∀ x, (seen.set a name).get? x = none ↔ x ≠ a ∧ seen.get? x = none := by
            intro x
            by_cases hx : x = a
            · subst hx; simp [GoMap.get?_set_self]
            · rw [GoMap.get?_set_ne _ _ (Ne.symm hx)]; simp [hx]
          refine ⟨?_, fun h x => ?_⟩
          · rw [i1]
            simp only [hset, List.nodup_cons, List.mem_cons, forall_eq_or_imp]
            constructor
            · rintro ⟨h1, h2⟩
              exact ⟨⟨⟨hh', hs⟩, fun x hx => ⟨(h1 x hx).1, (h1 x hx).2.2⟩⟩, fun hx => (h1 a hx).2.1 rfl, h2⟩
            · rintro ⟨⟨-, h1⟩, h2, h3⟩
              exact ⟨fun x hx => ⟨(h1 x hx).1, fun he => h2 (he ▸ hx), (h1 x hx).2⟩, h3⟩
          · rw [i2 h x, hset]
            simp only [List.mem_cons, not_or]
            exact ⟨fun h => ⟨⟨h.2.1, h.1⟩, h.2.2⟩, fun h => ⟨h.1.2, h.1.1, h.2⟩⟩

theorem aliasesLoop_spec (tasks order : TaskMap) (seen : GoMap Str) :
    aliasesLoop tasks order seen = [] ↔
      (∀ q ∈ declarations order, tasks.has q.1 = false ∧ seen.get? q.1 = none) ∧ ((declarations order).map (·.1)).Nodup := by
  induction order generalizing seen with
  | nil => simp [aliasesLoop, declarations]
  | cons q order ih =>
    obtain ⟨name, T⟩ := q
    rw [aliasesLoop]
    obtain ⟨a1, a2⟩ := aliasLoop_spec tasks name T.allAliases seen
    rw [allAliases_filter] at a1 a2
    have hd : declarations ((name, T) :: order) = (declared T).map (fun a => (a, name)) ++ declarations order := by
      simp [declarations]
    rw [hd, List.append_eq_nil_iff, ih, List.map_append, List.nodup_append]
    have hid : ((declared T).map ((fun x : Str × Str => x.1) ∘ fun a => (a, name))) = declared T := by
      rw [show ((fun x : Str × Str => x.1) ∘ fun a => (a, name)) = id from rfl, List.map_id]
    rw [List.map_map, hid]
    simp only [List.mem_append, List.mem_map]
    constructor
    · rintro ⟨h1, h2, h3⟩
      obtain ⟨b1, b2⟩ := a1.mp h1
      refine ⟨?_, b2, h3, ?_⟩
      · rintro q (⟨a, ha, rfl⟩ | hq)
        · exact b1 a ha
        · exact ⟨(h2 q hq).1, ((a2 h1 q.1).mp (h2 q hq).2).2⟩
      · rintro a ha b ⟨q, hq, rfl⟩ rfl
        exact ((a2 h1 q.1).mp (h2 q hq).2).1 ha
    · rintro ⟨h1, h2, h3, h4⟩
      have h0 : (aliasLoop tasks name T.allAliases seen).1 = [] :=
        a1.mpr ⟨fun a ha => h1 (a, name) (Or.inl ⟨a, ha, rfl⟩), h2⟩
      refine ⟨h0, fun q hq => ⟨(h1 q (Or.inr hq)).1, ?_⟩, h3⟩
      rw [a2 h0]
      exact ⟨fun hm => h4 _ hm _ ⟨q, hq, rfl⟩ rfl, (h1 q (Or.inr hq)).2⟩

theorem foldl_filter {α β : Type} (p : α → Prop) [DecidablePred p] (f : β → α → β) (l : List α) (b : β) :
    l.foldl (fun acc a => if p a then f acc a else acc) b = (l.filter p).foldl f b := by
  induction l generalizing b with
  | nil => rfl
  | cons a l ih =>
    by_cases h : p a
    · rw [List.filter_cons_of_pos (by simp [h])]; simp [h, ih]
    · rw [List.filter_cons_of_neg (by simp [h])]; simp [h, ih]

theorem buildAliasMap_eq (order : TaskMap) :
    buildAliasMap order = (declarations order).foldl (fun (acc : GoMap Str) q => acc.set q.1 q.2) [] := by
  unfold buildAliasMap declarations
  generalize ([] : GoMap Str) = acc
  induction order generalizing acc with
  | nil => rfl
  | cons q order ih =>
    obtain ⟨name, T⟩ := q
    rw [List.foldl_cons, List.flatMap_cons, List.foldl_append, ih]
    dsimp only
    rw [foldl_filter (fun a : Str => a ≠ []) (fun acc a => GoMap.set acc a name), allAliases_filter, List.foldl_map]

theorem get?_foldl_alias (l : List (Str × Str)) (hnd : (l.map (·.1)).Nodup) (acc : GoMap Str) (x : Str) :
    (∀ n, (x, n) ∈ l → (l.foldl (fun acc q => acc.set q.1 q.2) acc).get? x = some n) ∧
    ((∀ n, (x, n) ∉ l) → (l.foldl (fun acc q => acc.set q.1 q.2) acc).get? x = acc.get? x) := by
  induction l generalizing acc with
  | nil => exact ⟨fun n h => (by cases h), fun _ => rfl⟩
  | cons q l ih =>
    obtain ⟨a, m⟩ := q
    simp only [List.map_cons, List.nodup_cons] at hnd
    obtain ⟨i1, i2⟩ := ih hnd.2 (acc.set a m)
    rw [List.foldl_cons]
    refine ⟨fun n hn => ?_, fun h => ?_⟩
    · rcases List.mem_cons.mp hn with he | hn
      · cases he
        rw [i2 (fun n hn => hnd.1 (List.mem_map.mpr ⟨_, hn, rfl⟩)), GoMap.get?_set_self]
      · exact i1 n hn
    · have hx : x ≠ a := fun he => h m (he ▸ List.mem_cons_self)
      rw [i2 (fun n hn => h n (List.mem_cons_of_mem _ hn)), GoMap.get?_set_ne _ _ (Ne.symm hx)]

end Bab
