import Verif.Model.Viewport
import Verif.Props.View
/-
C104: the tabs of a parallel view follow the output.
-/

namespace Bab.View
open Bab Bab.View.Spec

namespace Spec

/-- the last `n` rows -/
def newest (n : Nat) (rows : List PortRow) : List PortRow := rows.drop (rows.length - n)

/-- the number of rows that a window of this height has for the output -/
def room (height : Nat) : Nat := max 1 (height - 4)

/-- the height of the window, if it was `h` before the messages -/
def heightAfter (h : Nat) : List ScreenMsg → Nat
  | [] => h
  | .resize h' :: ms => heightAfter h' ms
  | _ :: ms => heightAfter h ms

/-- the user does not scroll, and the window, of height `h` at first, does not become lower -/
def Steady : Nat → List ScreenMsg → Prop
  | _, [] => True
  | h, .resize h' :: ms => h ≤ h' ∧ Steady h' ms
  | _, .scroll _ :: _ => False
  | h, _ :: ms => Steady h ms

/-- the user changes to another tab -/
def Switch (m : ScreenMsg) : Prop := m = .next ∨ m = .prev

/-- output, the start or the end of an item -/
inductive Progress : ScreenMsg → Prop
  | output (key line : Str) : Progress (.msg (.output key line))
  | start (key : Str) : Progress (.msg (.start key))
  | done (key : Str) (o : Outcome) : Progress (.msg (.done key o))

/-- there are rows below those that are shown -/
def Scrolled (s : Screen) : Prop := s.port.y + s.port.height < s.port.rows.length

/-- as `Growing` -/
def ScreenGrowing (m : ScreenMsg) : Prop := ∀ x, m = .msg x → Growing x

/-- what there is to show of the active tab: its output, or its nested items, whose symbols may be those from before the cancellation
(`c = false`) -/
def contentRows (t : Tabs) (c : Bool) : List PortRow := rowsOf (tabContent { t with base := { t.base with cancelled := c } })

end Spec

/-- what holds of the state at any time -/
structure Sound (s : Screen) : Prop where
  tree : TreeLike s.tabs.base.items
  roots : 0 < s.tabs.base.roots.length
  unlimited : s.tabs.base.maxLines = 0
  low : 0 ≤ s.tabs.active
  high : s.tabs.active < s.tabs.base.roots.length
  room : s.port.rows ≠ [] → s.port.height = Spec.room s.height
  window : s.port.y ≤ s.port.maxY
  rows : ∃ c, s.port.rows = contentRows s.tabs c

theorem gotoBottom_y (p : Port) : p.gotoBottom.y = p.maxY := by simp [Port.gotoBottom, Port.setY]

theorem gotoBottom_rows (p : Port) : p.gotoBottom.rows = p.rows := rfl

theorem gotoBottom_height (p : Port) : p.gotoBottom.height = p.height := rfl

theorem gotoBottom_maxY (p : Port) : p.gotoBottom.maxY = p.maxY := rfl

theorem setContent_rows (p : Port) (rows : List PortRow) : (p.setContent rows).rows = rows := by
  unfold Port.setContent; dsimp only; split <;> rfl

theorem setContent_height (p : Port) (rows : List PortRow) : (p.setContent rows).height = p.height := by
  unfold Port.setContent; dsimp only; split <;> rfl

theorem setContent_y (p : Port) (rows : List PortRow) : (p.setContent rows).y = min p.y (rows.length - p.height) := by
  unfold Port.setContent; dsimp only; split
  · next h => rw [gotoBottom_y]; simp only [Port.maxY] at h ⊢; omega
  · next h => simp only [Port.maxY] at h ⊢; omega

theorem scroll_rows (p : Port) (k : Scroll) : (p.scroll k).rows = p.rows ∧ (p.scroll k).height = p.height := by
  cases k <;> (simp only [Port.scroll, Port.scrollUp, Port.scrollDown]; split <;> exact ⟨rfl, rfl⟩)

theorem scroll_window (p : Port) (k : Scroll) (h : p.y ≤ p.maxY) : (p.scroll k).y ≤ (p.scroll k).maxY := by
  have : ∀ n, (p.setY n).y ≤ (p.setY n).maxY := fun n => Nat.min_le_right n p.maxY
  cases k <;> (simp only [Port.scroll, Port.scrollUp, Port.scrollDown]; split <;> first | exact h | exact this _)

theorem refresh_tabs (s : Screen) : s.refresh.tabs = s.tabs ∧ s.refresh.height = s.height := by
  unfold Screen.refresh; split
  · exact ⟨rfl, rfl⟩
  · split <;> exact ⟨rfl, rfl⟩

/-- `refresh` sets rows and height, and goes to the end if the old rows were shown up to their end -/
theorem refresh_port (s : Screen) (hr : 0 < s.tabs.base.roots.length) :
    s.refresh.port.rows = rowsOf (tabContent s.tabs) ∧
      (s.refresh.port.rows ≠ [] → s.refresh.port.height = room s.height) ∧
      s.refresh.port.y ≤ s.refresh.port.maxY ∧
      (s.port.rows.length ≤ s.port.y + room s.height → s.refresh.port.rows.length ≤ s.refresh.port.y + s.refresh.port.height) ∧
      (tabContent s.tabs ≠ .empty → ¬ s.port.rows.length ≤ s.port.y + room s.height →
        s.refresh.port.y = min s.port.y ((rowsOf (tabContent s.tabs)).length - room s.height)) := by
  unfold Screen.refresh
  rw [if_neg (by omega)]
  cases hc : tabContent s.tabs with
  | empty =>
    dsimp only
    refine ⟨setContent_rows _ _, fun h => absurd (setContent_rows _ _) h, ?_, ?_, fun h => absurd rfl h⟩
    · rw [setContent_y]; simp
    · rw [setContent_rows]; simp
  | _ =>
    all_goals
      dsimp only
      generalize hq : ({ s.port with height := max 1 (s.height - 4) } : Port) = p
      have hh : p.height = room s.height := by rw [← hq]; rfl
      have hy : p.y = s.port.y := by rw [← hq]
      have hrow : p.rows = s.port.rows := by rw [← hq]
      cases hb : p.atBottom with
      | true =>
        simp only [if_true]
        refine ⟨setContent_rows _ _, fun _ => by rw [gotoBottom_height, setContent_height, hh], ?_, ?_, ?_⟩
        · rw [gotoBottom_y, gotoBottom_maxY]
        · intro _; rw [gotoBottom_y, gotoBottom_rows, gotoBottom_height, Port.maxY]; omega
        · intro _ h
          simp only [Port.atBottom, Port.maxY, decide_eq_true_eq, hh, hy, hrow] at hb
          omega
      | false =>
        simp only [Bool.false_eq_true, if_false]
        refine ⟨setContent_rows _ _, fun _ => by rw [setContent_height, hh], ?_, ?_, ?_⟩
        · rw [setContent_y, Port.maxY, setContent_rows, setContent_height]; exact Nat.min_le_right _ _
        · intro h
          simp only [Port.atBottom, Port.maxY, decide_eq_false_iff_not, hh, hy, hrow] at hb
          omega
        · intro _ _; rw [setContent_y, hh, hy]

/-- the rows are shown up to the last one -/
def Follows (s : Screen) : Prop := s.port.rows.length ≤ s.port.y + s.port.height

theorem room_mono {h h' : Nat} (hh : h ≤ h') : room h ≤ room h' := by unfold room; omega

theorem contentRows_self (t : Tabs) : contentRows t t.base.cancelled = rowsOf (tabContent t) := rfl

theorem handle_maxLines {b b' : Base} {m : Msg} (e : handle b m = some b') : b'.maxLines = b.maxLines := by
  cases m with
  | clearChildren key =>
    simp only [handle, clearChildren] at e
    split at e
    · cases e; rfl
    · rw [Option.map_eq_some_iff] at e
      obtain ⟨its, -, rfl⟩ := e
      split <;> rfl
  | register key parent label =>
    simp only [handle] at e
    repeat' split at e
    all_goals cases e; rfl
  | _ =>
    simp only [handle] at e
    try split at e
    all_goals cases e; rfl

theorem clamp_base (t : Tabs) : t.clamp.base = t.base := by
  unfold Tabs.clamp; split <;> rfl

theorem update_maxLines {t t' : Tabs} {m : TabMsg} (e : t.update m = some t') : t'.base.maxLines = t.base.maxLines := by
  cases m with
  | base x =>
    cases x with
    | _ =>
      simp only [Tabs.update] at e
      rw [Option.map_eq_some_iff] at e
      obtain ⟨b, hb, rfl⟩ := e
      try rw [clamp_base]
      exact handle_maxLines hb
  | other => cases e; rfl
  | _ =>
    simp only [Tabs.update] at e
    split at e <;> cases e
    · rw [clamp_base]
    · rfl

/-- after a change of the tabs and a refresh -/
theorem sound_refresh {s : Screen} (tree : TreeLike s.tabs.base.items) (roots : 0 < s.tabs.base.roots.length)
    (unlimited : s.tabs.base.maxLines = 0) (low : 0 ≤ s.tabs.active)
    (high : s.tabs.active < s.tabs.base.roots.length) : Sound s.refresh := by
  obtain ⟨h1, h2, h3, -, -⟩ := refresh_port s roots
  have ht := refresh_tabs s
  constructor
  · rw [ht.1]; exact tree
  · rw [ht.1]; exact roots
  · rw [ht.1]; exact unlimited
  · rw [ht.1]; exact low
  · rw [ht.1]; exact high
  · rw [ht.2]; exact h2
  · exact h3
  · rw [ht.1]; exact ⟨_, h1.trans (contentRows_self _).symm⟩

theorem sound_bottom {s : Screen} (h : Sound s) : Sound { s with port := s.port.gotoBottom } where
  tree := h.tree
  roots := h.roots
  unlimited := h.unlimited
  low := h.low
  high := h.high
  room := h.room
  window := by dsimp only; rw [gotoBottom_y, gotoBottom_maxY]
  rows := h.rows

/-- a message is handled, and what held before still holds -/
theorem sound_step {s : Screen} {m : ScreenMsg} (hg : ScreenGrowing m) (h : Sound s) :
    ∃ s', s.update m = some s' ∧ Sound s' ∧ s'.height = heightAfter s.height [m] ∧
      (Switch m → Follows s') ∧ (Steady s.height [m] → Follows s → Follows s') := by
  have inRange : ∀ x : Int, 0 ≤ x % (s.tabs.base.roots.length : Int) ∧ x % (s.tabs.base.roots.length : Int) < s.tabs.base.roots.length := by
    have := h.roots
    intro x; exact ⟨Int.emod_nonneg _ (by omega), Int.emod_lt_of_pos _ (by omega)⟩
  -- messages after which the view is refreshed
  have fresh : ∀ (t : Tabs) (hh : Nat), TreeLike t.base.items → t.base.roots = s.tabs.base.roots → t.base.maxLines = 0 → 0 ≤ t.active →
      t.active < t.base.roots.length →
      Sound (Screen.refresh { s with tabs := t, height := hh }) ∧ (Screen.refresh { s with tabs := t, height := hh }).height = hh ∧
        (s.height ≤ hh → Follows s → Follows (Screen.refresh { s with tabs := t, height := hh })) := by
    intro t hh h1 h2 hm h3 h4
    have hroots : 0 < t.base.roots.length := by rw [h2]; exact h.roots
    refine ⟨sound_refresh h1 hroots hm h3 h4, (refresh_tabs _).2, fun hle hf => ?_⟩
    refine (refresh_port { s with tabs := t, height := hh } hroots).2.2.2.1 ?_
    dsimp only
    by_cases hrow : s.port.rows = []
    · rw [hrow]; simp
    · have := room_mono hle
      have hf : s.port.rows.length ≤ s.port.y + s.port.height := hf
      rw [h.room hrow] at hf
      omega
  -- messages after which it is not
  have stale : ∀ (m : Msg), m = .allDone ∨ m = .ctrlC → ∃ t, s.tabs.update (.base m) = some t ∧ Sound { s with tabs := t } := by
    rintro m (rfl | rfl)
    · refine ⟨_, rfl, ⟨h.tree, h.roots, h.unlimited, h.low, h.high, h.room, h.window, ?_⟩⟩
      obtain ⟨c, hc⟩ := h.rows
      exact ⟨c, hc⟩
    · cases hcc : s.tabs.base.cancelled with
      | true =>
        refine ⟨s.tabs, by simp [Tabs.update, handle, hcc], h⟩
      | false =>
        refine ⟨{ s.tabs with base := { s.tabs.base with cancelled := true, cancels := s.tabs.base.cancels + 1 } },
          by simp [Tabs.update, handle, hcc], ⟨h.tree, h.roots, h.unlimited, h.low, h.high, h.room, h.window, ?_⟩⟩
        obtain ⟨c, hc⟩ := h.rows
        exact ⟨c, hc⟩
  have hmax : ∀ {m : TabMsg} {t : Tabs}, s.tabs.update m = some t → t.base.maxLines = 0 := fun e => by
    rw [update_maxLines e]; exact h.unlimited
  cases m with
  | scroll k =>
    refine ⟨_, rfl, ⟨h.tree, h.roots, h.unlimited, h.low, h.high, ?_, scroll_window _ _ h.window, ?_⟩, rfl, fun hs => ?_, fun hs => ?_⟩
    · dsimp only; rw [(scroll_rows _ _).1, (scroll_rows _ _).2]; exact h.room
    · dsimp only; rw [(scroll_rows _ _).1]; exact h.rows
    · rcases hs with hs | hs <;> cases hs
    · exact absurd hs (by simp [Steady])
  | next =>
    obtain ⟨t, e, h1, h2, h3⟩ := tab_step (m := .next) (fun _ hx => by cases hx) h.tree h.roots h.low h.high
    have hr := inRange (s.tabs.active + 1)
    obtain ⟨f1, f2, f3⟩ := fresh t s.height h1 h2 (hmax e) (by rw [h3]; exact hr.1) (by rw [h3, h2]; exact hr.2)
    have hn : ¬ t.base.roots.length = 0 := by rw [h2]; have := h.roots; omega
    refine ⟨_, by simp only [Screen.update, e, Option.map_some, if_neg hn], sound_bottom f1, f2, fun _ => ?_, fun _ _ => ?_⟩
    all_goals
      unfold Follows
      rw [gotoBottom_y, gotoBottom_rows, gotoBottom_height, Port.maxY]; omega
  | prev =>
    obtain ⟨t, e, h1, h2, h3⟩ := tab_step (m := .prev) (fun _ hx => by cases hx) h.tree h.roots h.low h.high
    have hr := inRange (s.tabs.active - 1)
    obtain ⟨f1, f2, f3⟩ := fresh t s.height h1 h2 (hmax e) (by rw [h3]; exact hr.1) (by rw [h3, h2]; exact hr.2)
    have hn : ¬ t.base.roots.length = 0 := by rw [h2]; have := h.roots; omega
    refine ⟨_, by simp only [Screen.update, e, Option.map_some, if_neg hn], sound_bottom f1, f2, fun _ => ?_, fun _ _ => ?_⟩
    all_goals
      unfold Follows
      rw [gotoBottom_y, gotoBottom_rows, gotoBottom_height, Port.maxY]; omega
  | resize hh =>
    obtain ⟨t, e, h1, h2, h3⟩ := tab_step (m := .base .size) (fun _ hx => by cases hx; intro _ _ _ hh; cases hh) h.tree h.roots h.low h.high
    obtain ⟨f1, f2, f3⟩ := fresh t hh h1 h2 (hmax e) (by rw [h3]; exact h.low) (by rw [h3, h2]; exact h.high)
    refine ⟨_, by simp only [Screen.update, e, Option.map_some], f1, f2, fun hs => ?_, fun hs => f3 hs.1⟩
    rcases hs with hs | hs <;> cases hs
  | msg x =>
    have general : x ≠ .allDone → x ≠ .ctrlC → ∃ s', s.update (.msg x) = some s' ∧ Sound s' ∧ s'.height = heightAfter s.height [.msg x] ∧
        (Switch (.msg x) → Follows s') ∧ (Steady s.height [.msg x] → Follows s → Follows s') := by
      intro n1 n2
      obtain ⟨t, e, h1, h2, h3⟩ := tab_step (m := .base x) (fun y hx => by cases hx; exact hg x rfl) h.tree h.roots h.low h.high
      obtain ⟨f1, f2, f3⟩ := fresh t s.height h1 h2 (hmax e) (by rw [h3]; exact h.low) (by rw [h3, h2]; exact h.high)
      refine ⟨Screen.refresh { s with tabs := t }, ?_, f1, f2, fun hs => ?_, fun _ => f3 (Nat.le_refl _)⟩
      · cases x with
        | allDone => exact absurd rfl n1
        | ctrlC => exact absurd rfl n2
        | _ => simp only [Screen.update, e, Option.map_some]
      · rcases hs with hs | hs <;> cases hs
    cases x with
    | allDone =>
      obtain ⟨t, e, hs⟩ := stale .allDone (.inl rfl)
      exact ⟨_, by simp only [Screen.update, e, Option.map_some], hs, rfl, fun hs => (by rcases hs with hs | hs <;> cases hs), fun _ hf => hf⟩
    | ctrlC =>
      obtain ⟨t, e, hs⟩ := stale .ctrlC (.inr rfl)
      exact ⟨_, by simp only [Screen.update, e, Option.map_some], hs, rfl, fun hs => (by rcases hs with hs | hs <;> cases hs), fun _ hf => hf⟩
    | _ => exact general (by simp) (by simp)

theorem heightAfter_append (h : Nat) (xs ys : List ScreenMsg) : heightAfter h (xs ++ ys) = heightAfter (heightAfter h xs) ys := by
  induction xs generalizing h with
  | nil => rfl
  | cons x xs ih => cases x <;> exact ih _

theorem sound_run (msgs : List ScreenMsg) : ∀ {s : Screen}, (∀ m ∈ msgs, ScreenGrowing m) → Sound s →
    ∃ s', msgs.foldlM Screen.update s = some s' ∧ Sound s' ∧ s'.height = heightAfter s.height msgs ∧
      (Steady s.height msgs → Follows s → Follows s') := by
  induction msgs with
  | nil => intro s _ h; exact ⟨s, rfl, h, rfl, fun _ hf => hf⟩
  | cons m ms ih =>
    intro s hg h
    obtain ⟨s1, e1, h1, e2, -, h3⟩ := sound_step (hg m List.mem_cons_self) h
    obtain ⟨s2, e3, h4, e4, h5⟩ := ih (fun x hx => hg x (List.mem_cons_of_mem _ hx)) h1
    refine ⟨s2, by rw [List.foldlM_cons, e1]; exact e3, h4, ?_, fun hs hf => ?_⟩
    · rw [e4, e2, ← heightAfter_append]; rfl
    · have : Steady s.height [m] ∧ Steady s1.height ms := by
        rw [e2]
        cases m with
        | resize hh => exact ⟨⟨hs.1, trivial⟩, hs.2⟩
        | scroll k => exact absurd hs (by simp [Steady])
        | _ => exact ⟨trivial, hs⟩
      exact h5 this.2 (h3 this.1 hf)

theorem sound_start {labels : List Str} (hl : labels ≠ []) (h : Nat) :
    ∃ s, (Screen.new labels).update (.resize h) = some s ∧ Sound s ∧ s.height = h ∧ Follows s := by
  have hroots : (newBase labels 0).roots.length = labels.length := by simp [newBase]
  have hpos : 0 < labels.length := List.length_pos_iff.mpr hl
  obtain ⟨t, e, h1, h2, h3⟩ := tab_step (t := ⟨newBase labels 0, 0⟩) (m := .base .size) (fun _ hx => by cases hx; intro _ _ _ hh; cases hh)
    (treeLike_new labels 0) (by rw [hroots]; exact hpos) (Int.le_refl _) (by dsimp only; rw [hroots]; omega)
  have hr : 0 < t.base.roots.length := by rw [h2]; dsimp only; rw [hroots]; exact hpos
  refine ⟨Screen.refresh { Screen.new labels with tabs := t, height := h }, ?_, sound_refresh h1 hr (update_maxLines e) ?_ ?_, (refresh_tabs _).2, ?_⟩
  · simp only [Screen.update, show (Screen.new labels).tabs = ⟨newBase labels 0, 0⟩ from rfl, e, Option.map_some]
  · show 0 ≤ t.active
    rw [h3]; exact Int.le_refl _
  · show t.active < t.base.roots.length
    rw [h3]; dsimp only; omega
  · exact (refresh_port { Screen.new labels with tabs := t, height := h } hr).2.2.2.1 (Nat.zero_le _)

/-- the state after a history -/
theorem sound_history {labels : List Str} (hl : labels ≠ []) (h : Nat) {msgs : List ScreenMsg} (hg : ∀ m ∈ msgs, ScreenGrowing m) :
    ∃ s, screenHistory labels h msgs = some s ∧ Sound s ∧ s.height = heightAfter h msgs ∧ (Steady h msgs → Follows s) := by
  obtain ⟨s, e, h1, h2, h3⟩ := sound_start hl h
  obtain ⟨s', e', h4, h5, h6⟩ := sound_run msgs hg h1
  rw [h2] at h5 h6
  exact ⟨s', by rw [screenHistory, List.foldlM_cons, e]; exact e', h4, h5, fun hs => h6 hs h3⟩

theorem screen_append {labels : List Str} {h : Nat} {xs ys : List ScreenMsg} {s : Screen} (hx : screenHistory labels h xs = some s) :
    screenHistory labels h (xs ++ ys) = ys.foldlM Screen.update s := by
  rw [screenHistory] at hx ⊢
  rw [← List.cons_append, List.foldlM_append, hx]; rfl

theorem visible_newest {s : Screen} (hs : Sound s) (hf : Follows s) : s.port.visible = newest (room s.height) s.port.rows := by
  by_cases hr : s.port.rows = []
  · simp [Port.visible, newest, hr]
  · have h1 := hs.room hr
    have h2 := hs.window
    unfold Follows at hf
    rw [Port.maxY] at h2
    rw [Port.visible, newest, ← h1, show s.port.y = s.port.rows.length - s.port.height by omega, List.take_of_length_le]
    rw [List.length_drop]; omega

/-- C104: a tab shows as many rows as the window has room for, if there are as many, and they are consecutive rows of what there is to
show: of the output of the item, or of its nested items. -/
theorem C104_window {labels : List Str} (hl : labels ≠ []) {h : Nat} {msgs : List ScreenMsg} (hg : ∀ m ∈ msgs, ScreenGrowing m) :
    ∃ s c, screenHistory labels h msgs = some s ∧ s.port.visible <:+: contentRows s.tabs c ∧
      s.port.visible.length = min (room (heightAfter h msgs)) (contentRows s.tabs c).length := by
  obtain ⟨s, e, hs, hh, -⟩ := sound_history hl h hg
  obtain ⟨c, hc⟩ := hs.rows
  refine ⟨s, c, e, ?_, ?_⟩
  · rw [← hc]; exact (List.take_prefix _ _).isInfix.trans (List.drop_suffix _ _).isInfix
  · rw [← hc, ← hh]
    have h1 := hs.window
    rw [Port.visible, List.length_take, List.length_drop]
    rw [Port.maxY] at h1
    by_cases hr : s.port.rows = []
    · simp [hr]
    · rw [← hs.room hr]; omega

/-- C104: from the start, or from when the user changes to a tab, the newest rows are shown, until the user scrolls or the window becomes
lower. The latter should not matter, but does (`C104_lower_window`). -/
theorem C104_follow_partial {labels : List Str} (hl : labels ≠ []) {h : Nat} {pre suf : List ScreenMsg} (hg : ∀ m ∈ pre ++ suf, ScreenGrowing m)
    (hpre : pre = [] ∨ ∃ pre' m, pre = pre' ++ [m] ∧ Switch m) (hsuf : Steady (heightAfter h pre) suf) :
    ∃ s c, screenHistory labels h (pre ++ suf) = some s ∧
      s.port.visible = newest (room (heightAfter h (pre ++ suf))) (contentRows s.tabs c) := by
  have hg1 : ∀ m ∈ pre, ScreenGrowing m := fun m hm => hg m (List.mem_append_left _ hm)
  have hg2 : ∀ m ∈ suf, ScreenGrowing m := fun m hm => hg m (List.mem_append_right _ hm)
  have start : ∃ s, screenHistory labels h pre = some s ∧ Sound s ∧ s.height = heightAfter h pre ∧ Follows s := by
    rcases hpre with rfl | ⟨pre', m, rfl, hm⟩
    · obtain ⟨s, e, h1, h2, h3⟩ := sound_history hl h hg1
      exact ⟨s, e, h1, h2, h3 trivial⟩
    · obtain ⟨s, e, h1, h2, -⟩ := sound_history hl h (msgs := pre') (fun x hx => hg1 x (List.mem_append_left _ hx))
      obtain ⟨s', e', h3, h4, h5, -⟩ := sound_step (m := m) (hg1 m (by simp)) h1
      refine ⟨s', ?_, h3, by rw [h4, h2, heightAfter_append], h5 hm⟩
      rw [screen_append e, List.foldlM_cons, e']; rfl
  obtain ⟨s, e, h1, h2, h3⟩ := start
  obtain ⟨s', e', h4, h5, h6⟩ := sound_run suf hg2 h1
  rw [h2] at h5 h6
  obtain ⟨c, hc⟩ := h4.rows
  refine ⟨s', c, by rw [screen_append e, e'], ?_⟩
  rw [visible_newest h4 (h6 hsuf h3), h5, heightAfter_append, hc]

/-! ### Scrolling -/

theorem ups (n : Nat) : ∀ {p : Port}, p.y ≤ p.maxY → ((List.replicate n Scroll.up).foldl Port.scroll p).y = p.y - n ∧
    ((List.replicate n Scroll.up).foldl Port.scroll p).rows = p.rows ∧ ((List.replicate n Scroll.up).foldl Port.scroll p).height = p.height := by
  induction n with
  | zero => intro p _; exact ⟨rfl, rfl, rfl⟩
  | succ n ih =>
    intro p h
    obtain ⟨h1, h2, h3⟩ := ih (scroll_window p .up h)
    rw [List.replicate_succ, List.foldl_cons]
    refine ⟨?_, h2.trans (scroll_rows p .up).1, h3.trans (scroll_rows p .up).2⟩
    rw [h1]
    simp only [Port.scroll, Port.scrollUp]
    split
    · omega
    · simp only [Port.setY]; omega

theorem downs (n : Nat) : ∀ {p : Port}, p.y ≤ p.maxY → ((List.replicate n Scroll.down).foldl Port.scroll p).y = min (p.y + n) p.maxY ∧
    ((List.replicate n Scroll.down).foldl Port.scroll p).rows = p.rows ∧ ((List.replicate n Scroll.down).foldl Port.scroll p).height = p.height := by
  induction n with
  | zero => intro p h; exact ⟨by simp [Nat.min_eq_left h], rfl, rfl⟩
  | succ n ih =>
    intro p h
    obtain ⟨h1, h2, h3⟩ := ih (scroll_window p .down h)
    have hm : (p.scroll .down).maxY = p.maxY := by rw [Port.maxY, (scroll_rows p .down).1, (scroll_rows p .down).2]; rfl
    rw [List.replicate_succ, List.foldl_cons]
    refine ⟨?_, h2.trans (scroll_rows p .down).1, h3.trans (scroll_rows p .down).2⟩
    rw [h1, hm]
    simp only [Port.scroll, Port.scrollDown]
    split
    · next hb => simp only [Port.atBottom, decide_eq_true_eq] at hb; omega
    · simp only [Port.setY]; omega

theorem scrolls (ks : List Scroll) (s : Screen) :
    (ks.map ScreenMsg.scroll).foldlM Screen.update s = some { s with port := ks.foldl Port.scroll s.port } := by
  induction ks generalizing s with
  | nil => rfl
  | cons k ks ih => rw [List.map_cons, List.foldlM_cons]; exact ih _

/-- C104: every row can be scrolled to. -/
theorem C104_reach {labels : List Str} (hl : labels ≠ []) {h : Nat} {msgs : List ScreenMsg} (hg : ∀ m ∈ msgs, ScreenGrowing m) :
    ∃ s c, screenHistory labels h msgs = some s ∧ ∀ k, k < (contentRows s.tabs c).length →
      ∃ (ks : List Scroll) (s' : Screen) (above below : List PortRow), screenHistory labels h (msgs ++ ks.map .scroll) = some s' ∧
        contentRows s.tabs c = above ++ s'.port.visible ++ below ∧ above.length ≤ k ∧ k < above.length + s'.port.visible.length := by
  obtain ⟨s, e, hs, hh, -⟩ := sound_history hl h hg
  obtain ⟨c, hc⟩ := hs.rows
  refine ⟨s, c, e, fun k hk => ?_⟩
  rw [← hc] at hk ⊢
  have hr : s.port.rows ≠ [] := by intro h0; rw [h0] at hk; exact absurd hk (Nat.not_lt_zero _)
  have hroom : 1 ≤ s.port.height := by rw [hs.room hr]; unfold room; omega
  obtain ⟨u1, u2, u3⟩ := ups s.port.y hs.window
  generalize hp : (List.replicate s.port.y Scroll.up).foldl Port.scroll s.port = p at u1 u2 u3
  obtain ⟨d1, d2, d3⟩ := downs k (p := p) (by rw [u1]; omega)
  generalize hq : (List.replicate k Scroll.down).foldl Port.scroll p = q at d1 d2 d3
  have hm : p.maxY = s.port.rows.length - s.port.height := by rw [Port.maxY, u2, u3]
  refine ⟨List.replicate s.port.y .up ++ List.replicate k .down, { s with port := q }, s.port.rows.take q.y, (s.port.rows.drop q.y).drop q.height, ?_, ?_, ?_, ?_⟩
  · rw [screen_append e, scrolls, List.foldl_append, hp, hq]
  · show s.port.rows = _ ++ q.visible ++ _
    rw [Port.visible, d2, u2, List.append_assoc, List.take_append_drop, List.take_append_drop]
  · rw [List.length_take, d1]; omega
  · show k < _ + q.visible.length
    rw [Port.visible, List.length_take, List.length_take, List.length_drop, d2, u2, d3, u3, d1, hm, u1]; omega

/-- C104: if the user has scrolled back to the end, the newest rows are shown again as from the start. -/
theorem C104_resume {labels : List Str} (hl : labels ≠ []) {h : Nat} {pre suf : List ScreenMsg} (hg : ∀ m ∈ pre ++ suf, ScreenGrowing m)
    (hsuf : Steady (heightAfter h pre) suf) :
    ∃ n, ∀ k, n ≤ k → ∃ s c, screenHistory labels h (pre ++ (List.replicate k Scroll.down).map .scroll ++ suf) = some s ∧
      s.port.visible = newest (room (heightAfter h (pre ++ suf))) (contentRows s.tabs c) := by
  obtain ⟨s, e, hs, hh, -⟩ := sound_history hl h (msgs := pre) fun m hm => hg m (List.mem_append_left _ hm)
  refine ⟨s.port.rows.length, fun k hk => ?_⟩
  obtain ⟨d1, d2, d3⟩ := downs k hs.window
  have e1 : screenHistory labels h (pre ++ (List.replicate k Scroll.down).map .scroll) =
      some { s with port := (List.replicate k Scroll.down).foldl Port.scroll s.port } := by rw [screen_append e, scrolls]
  generalize (List.replicate k Scroll.down).foldl Port.scroll s.port = q at d1 d2 d3 e1
  have hm : q.maxY = s.port.maxY := by rw [Port.maxY, d2, d3]; rfl
  have hq : Sound { s with port := q } := ⟨hs.tree, hs.roots, hs.unlimited, hs.low, hs.high, by dsimp only; rw [d2, d3]; exact hs.room,
    by dsimp only; rw [hm, d1]; omega, by dsimp only; rw [d2]; exact hs.rows⟩
  have hf : Follows { s with port := q } := by
    unfold Follows; dsimp only; rw [d1, d2, d3, Port.maxY]; omega
  obtain ⟨s', e', h4, h5, h6⟩ := sound_run suf (fun m hm => hg m (List.mem_append_right _ hm)) hq
  rw [show ({ s with port := q } : Screen).height = heightAfter h pre from hh] at h5 h6
  obtain ⟨c, hc⟩ := h4.rows
  refine ⟨s', c, by rw [screen_append e1, e'], ?_⟩
  rw [visible_newest h4 (h6 hsuf hf), h5, heightAfter_append, hc]

/-! ### New output does not move what is shown -/

theorem content_lines {t : Tabs} {ls : List Str} (h : tabContent t = .lines ls) (c : Bool) : contentRows t c = ls.map .text := by
  have : tabContent { t with base := { t.base with cancelled := c } } = .lines ls := by
    unfold tabContent at h ⊢
    dsimp only at h ⊢
    cases hr : t.base.roots[t.active.toNat]? with
    | none => rw [hr] at h; cases h
    | some key =>
      rw [hr] at h
      dsimp only at h ⊢
      cases hi : t.base.items.get? key with
      | none => rw [hi] at h; cases h
      | some it =>
        rw [hi] at h
        dsimp only [buildContent] at h ⊢
        by_cases h1 : it.children.length > 0
        · rw [if_pos h1] at h; cases h
        · rw [if_neg h1] at h ⊢; exact h
  rw [contentRows, this]; rfl

/-- output is added at the end -/
theorem progress_item {b b' : Base} {m : Msg} (hm : Progress (.msg m)) (h0 : b.maxLines = 0) (e : handle b m = some b') {key : Str} {it : Item}
    (hit : b.items.get? key = some it) :
    b'.roots = b.roots ∧ ∃ it', b'.items.get? key = some it' ∧ it'.children = it.children ∧ it.lines <+: it'.lines := by
  have get : ∀ (k : Str) (x : Item), (b.items.set k x).get? key = if k = key then some x else b.items.get? key := fun k x => GoMap.get?_set _ _ _ _
  cases hm with
  | output k line =>
    simp only [handle] at e
    cases hk : b.items.get? k with
    | none => rw [hk] at e; cases e; exact ⟨rfl, it, hit, rfl, List.prefix_refl _⟩
    | some x =>
      rw [hk] at e; cases e
      refine ⟨rfl, ?_⟩
      dsimp only
      rw [get, h0]
      split
      · next hkk =>
        subst hkk
        rw [hk] at hit; cases hit
        exact ⟨_, rfl, rfl, by simp⟩
      · exact ⟨it, hit, rfl, List.prefix_refl _⟩
  | start k =>
    simp only [handle] at e
    cases hk : b.items.get? k with
    | none => rw [hk] at e; cases e; exact ⟨rfl, it, hit, rfl, List.prefix_refl _⟩
    | some x =>
      rw [hk] at e; cases e
      refine ⟨rfl, ?_⟩
      dsimp only
      rw [get]
      split
      · next hkk =>
        subst hkk
        rw [hk] at hit; cases hit
        exact ⟨_, rfl, rfl, List.prefix_refl _⟩
      · exact ⟨it, hit, rfl, List.prefix_refl _⟩
  | done k o =>
    simp only [handle] at e
    cases hk : b.items.get? k with
    | none => rw [hk] at e; cases e; exact ⟨rfl, it, hit, rfl, List.prefix_refl _⟩
    | some x =>
      rw [hk] at e; cases e
      refine ⟨rfl, ?_⟩
      dsimp only
      rw [get]
      split
      · next hkk =>
        subst hkk
        rw [hk] at hit; cases hit
        exact ⟨_, rfl, rfl, List.prefix_refl _⟩
      · exact ⟨it, hit, rfl, List.prefix_refl _⟩

theorem progress_content {t : Tabs} {b' : Base} {m : Msg} (hm : Progress (.msg m)) (h0 : t.base.maxLines = 0) (e : handle t.base m = some b')
    {ls : List Str} (hc : tabContent t = .lines ls) : ∃ ls', tabContent { t with base := b' } = .lines ls' ∧ ls <+: ls' := by
  unfold tabContent at hc ⊢
  dsimp only at hc ⊢
  cases hr : t.base.roots[t.active.toNat]? with
  | none => rw [hr] at hc; cases hc
  | some key =>
    rw [hr] at hc
    dsimp only at hc
    cases hi : t.base.items.get? key with
    | none => rw [hi] at hc; cases hc
    | some it =>
      rw [hi] at hc
      obtain ⟨h1, it', h2, h3, h4⟩ := progress_item hm h0 e hi
      rw [h1, hr]
      dsimp only
      rw [h2]
      dsimp only [buildContent] at hc ⊢
      rw [h3]
      by_cases hch : it.children.length > 0
      · rw [if_pos hch] at hc; cases hc
      · rw [if_neg hch] at hc ⊢
        by_cases hl : it.lines.length = 0
        · rw [if_pos hl] at hc; split at hc <;> cases hc
        · rw [if_neg hl] at hc
          cases hc
          have := h4.length_le
          rw [if_neg (by omega)]
          exact ⟨_, rfl, h4⟩

theorem still_step {s s' : Screen} {m : ScreenMsg} (hs : Sound s) (hm : Progress m) (hsc : Scrolled s) {ls : List Str}
    (hc : tabContent s.tabs = .lines ls) (e : s.update m = some s') :
    Sound s' ∧ Scrolled s' ∧ s'.port.visible = s.port.visible ∧ ∃ ls', tabContent s'.tabs = .lines ls' := by
  have hg : ScreenGrowing m := by
    intro x hx
    cases hm <;> (cases hx; intro _ _ _ hh; cases hh)
  obtain ⟨s1, e1, h1, -, -, -⟩ := sound_step hg hs
  rw [e] at e1; cases e1
  have hrows : s.port.rows = ls.map .text := by
    obtain ⟨c, hc'⟩ := hs.rows
    rw [hc', content_lines hc]
  have hne : s.port.rows ≠ [] := by intro h0; rw [Scrolled, h0] at hsc; exact absurd hsc (Nat.not_lt_zero _)
  have hroom := hs.room hne
  -- the tabs after the message
  have main : ∀ x : Msg, m = .msg x → ∃ b', handle s.tabs.base x = some b' ∧
      s' = Screen.refresh { s with tabs := { s.tabs with base := b' } } := by
    intro x hx
    subst hx
    have hroots : ∀ b', handle s.tabs.base x = some b' → Tabs.clamp { s.tabs with base := b' } = { s.tabs with base := b' } := by
      intro b' hb
      obtain ⟨b1, hb1, -, hr1, -⟩ := treeLike_handle hs.tree (m := x) (hg x rfl)
      rw [hb] at hb1; cases hb1
      exact clamp_id hs.low (by dsimp only; rw [hr1]; exact hs.high)
    cases hm <;>
    · simp only [Screen.update, Tabs.update, Option.map_map] at e
      rw [Option.map_eq_some_iff] at e
      obtain ⟨b', hb, rfl⟩ := e
      exact ⟨b', hb, by rw [Function.comp_apply, hroots b' hb]⟩
  have hx : ∃ x, m = .msg x := by cases hm <;> exact ⟨_, rfl⟩
  obtain ⟨x, rfl⟩ := hx
  obtain ⟨b', hb, rfl⟩ := main x rfl
  obtain ⟨ls', hls, hpre⟩ := progress_content hm hs.unlimited hb hc
  have hroots : 0 < ({ s with tabs := { s.tabs with base := b' } } : Screen).tabs.base.roots.length := by
    have := h1.roots; rwa [(refresh_tabs _).1] at this
  obtain ⟨r1, r2, r3, -, r5⟩ := refresh_port { s with tabs := { s.tabs with base := b' } } hroots
  have ht : (Screen.refresh { s with tabs := { s.tabs with base := b' } }).tabs = { s.tabs with base := b' } := (refresh_tabs _).1
  generalize Screen.refresh { s with tabs := { s.tabs with base := b' } } = s2 at *
  dsimp only at r1 r2 r5
  rw [hls] at r1 r5
  have hlen := hpre.length_le
  have l1 : s.port.rows.length = ls.length := by rw [hrows, List.length_map]
  have l2 : s2.port.rows.length = ls'.length := by rw [r1]; simp [rowsOf]
  unfold Scrolled at hsc ⊢
  rw [l1] at hsc
  have hn2 : s2.port.rows ≠ [] := by intro h0; rw [h0] at l2; simp at l2; omega
  have hh2 := r2 hn2
  have hy : s2.port.y = s.port.y := by
    rw [r5 (by simp) (by rw [l1]; omega)]
    simp only [rowsOf, List.length_map]; omega
  refine ⟨h1, by rw [hy, hh2, l2]; omega, ?_, ls', by rw [ht, hls]⟩
  rw [Port.visible, Port.visible, hy, hh2, ← hroom, r1, hrows]
  obtain ⟨more, rfl⟩ := hpre
  simp only [rowsOf, List.map_append]
  rw [List.drop_append_of_le_length (by rw [List.length_map]; omega), List.take_append_of_le_length]
  rw [List.length_drop, List.length_map]; omega

/-- C104: while the user reads what is further up, new output, of this item or of others, does not move what is shown. -/
theorem C104_still {labels : List Str} (hl : labels ≠ []) {h : Nat} {pre suf : List ScreenMsg} (hg : ∀ m ∈ pre, ScreenGrowing m)
    {s : Screen} (hs : screenHistory labels h pre = some s) {ls : List Str} (hc : tabContent s.tabs = .lines ls) (hsc : Scrolled s)
    (hp : ∀ m ∈ suf, Progress m) :
    ∃ s', screenHistory labels h (pre ++ suf) = some s' ∧ s'.port.visible = s.port.visible := by
  obtain ⟨s0, e, h1, -, -⟩ := sound_history hl h hg
  rw [hs] at e; cases e
  rw [screen_append hs]
  clear hs
  induction suf generalizing s ls with
  | nil => exact ⟨s, rfl, rfl⟩
  | cons m ms ih =>
    have hm := hp m List.mem_cons_self
    have hg1 : ScreenGrowing m := by
      intro x hx
      cases hm <;> (cases hx; intro _ _ _ hh; cases hh)
    obtain ⟨s1, e1, -⟩ := sound_step hg1 h1
    obtain ⟨h2, h3, h4, ls', h5⟩ := still_step h1 hm hsc hc e1
    obtain ⟨s', e2, h6⟩ := ih (s := s1) h5 h3 (fun x hx => hp x (List.mem_cons_of_mem _ hx)) h2
    exact ⟨s', by rw [List.foldlM_cons, e1]; exact e2, h6.trans h4⟩

/-! ### Where it fails, and examples -/

/-- six lines of output -/
def Sample.six : List ScreenMsg := ["1", "2", "3", "4", "5", "6"].map fun l => .msg (.output (itemKey 0) l.toList)

/-- C104 fails when the window becomes lower: there is room for four rows then, but the first four of the six lines are shown, and not the
last ones, and so it stays when there is more output, until the user scrolls down or changes the tab. -/
theorem C104_lower_window : (screenHistory ["a".toList] 10 (Sample.six ++ [.resize 8, .msg (.output (itemKey 0) "7".toList)])).map (·.port.visible) =
    some [.text "1".toList, .text "2".toList, .text "3".toList, .text "4".toList] := by decide +kernel

/-- C104: nor are the symbols of nested items up to date at once: they stay as they are when the user interrupts the run, until the next
message. -/
theorem C104_stale_symbols : (screenHistory ["a".toList] 10
      [.msg (.register "0.0".toList (itemKey 0) "b".toList), .msg (.start "0.0".toList), .msg .ctrlC]).map (fun s => (s.port.visible, rowsOf (tabContent s.tabs))) =
    some ([.nested "b".toList .running .none], [.nested "b".toList .cancelled .none]) := by decide +kernel

-- the newest lines, in a window with room for four
example : (screenHistory ["a".toList, "b".toList] 8 Sample.six).map (·.port.visible) =
    some [.text "3".toList, .text "4".toList, .text "5".toList, .text "6".toList] := by decide +kernel

-- the user goes to the other tab and back, and the window becomes higher
example : ScreenMsg.next ∈ Sample.six ++ [.next] ∧ Switch .next ∧ Steady 8 (.next :: Sample.six ++ [.resize 12]) ∧
    (screenHistory ["a".toList, "b".toList] 8 (Sample.six ++ [.next, .prev, .resize 9])).map (·.port.visible) =
      some [.text "2".toList, .text "3".toList, .text "4".toList, .text "5".toList, .text "6".toList] := by
  refine ⟨by simp, .inl rfl, ?_, by decide +kernel⟩
  simp [Sample.six, Steady]

-- the user reads further up while there is more output
example : (screenHistory ["a".toList] 8 (Sample.six ++ [.scroll .up])).map (fun s => (s.port.y, s.port.height, s.port.rows.length, tabContent s.tabs)) =
      some (1, 4, 6, .lines (["1", "2", "3", "4", "5", "6"].map String.toList)) ∧
    (screenHistory ["a".toList] 8 (Sample.six ++ [.scroll .up] ++ [.msg (.output (itemKey 0) "7".toList)])).map (·.port.visible) =
      some [.text "2".toList, .text "3".toList, .text "4".toList, .text "5".toList] := by decide +kernel

-- the messages are as they should be
example : ∀ m ∈ Sample.six ++ [ScreenMsg.resize 8], ScreenGrowing m := by
  intro m hm x hx
  subst hx
  simp [Sample.six] at hm
  rcases hm with rfl | rfl | rfl | rfl | rfl | rfl <;> (intro _ _ _ h; cases h)

end Bab.View
