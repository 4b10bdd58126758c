import Verif.Model.UpdateRuns
import Verif.Props.Update
import Mathlib.Logic.Equiv.List
/-
C98: over all invocations, the server is asked at most once a day, and a new release is announced.
-/

namespace Bab.Update

namespace Spec

/-- the invocations come one after the other, and an answer is saved while bab runs; the clock does not go back -/
def InTurn : Int → List Invocation → Prop
  | _, [] => True
  | t, r :: rs => t ≤ r.start ∧ r.start ≤ r.stop ∧ (∀ s, r.saved = some s → r.start ≤ s ∧ s ≤ r.stop) ∧ InTurn r.stop rs

/-- 24 hours in nanoseconds -/
def day : Int := 24 * 3600 * 1000000000

/-- the answer names a release, or says that the one that is known is still the latest -/
def Tells (decode : List UInt8 → Option Cached) (file : Option (List UInt8)) (r : Invocation) : Prop :=
  (∃ v tag, v ≠ [] ∧ r.answer = .response 200 (some v) tag) ∨
  (∃ c tag etag, Usable decode file r.start c ∧ r.answer = .response 304 tag etag)

end Spec
open Spec

section
variable {V : Type} {decode : List UInt8 → Option Cached} {encode : Cached → List UInt8} {parse : Str → Option V} {gt : V → V → Bool}

theorem asks_iff (file : Option (List UInt8)) (r : Invocation) : asks decode file r = true ↔
    Enabled r.env r.current ∧ ∀ c, Usable decode file r.start c → r.start - c.checkedAt ≥ day := by
  unfold asks
  have h := C53_request r.env decode file r.start r.current
  rw [Option.isSome_iff_ne_none]
  exact h

/-- the file has an entry that was made between these times -/
def Between (decode : List UInt8 → Option Cached) (lo hi : Int) (file : Option (List UInt8)) : Prop :=
  ∃ c, Usable decode file hi c ∧ lo ≤ c.checkedAt

theorem Between.later {lo hi hi' : Int} {file : Option (List UInt8)} (h : Between decode lo hi file) (hl : hi ≤ hi') : Between decode lo hi' file := by
  obtain ⟨c, ⟨b, h1, h2, h3, h4⟩, h5⟩ := h
  exact ⟨c, ⟨b, h1, h2, h3, by omega⟩, h5⟩

theorem start_cached {file : Option (List UInt8)} {r : Invocation} {cached : Option Cached}
    (h : startRefresh r.env decode file r.start r.current = some cached) : cached = loadCache decode file r.start := by
  unfold startRefresh at h
  split at h
  · cases h
  · dsimp only at h
    split at h
    · exact (Option.some.inj h).symm
    · cases h

theorem fileAfter_cases (hj : ∀ c, decode (encode c) = some c) (file : Option (List UInt8)) (r : Invocation) :
    fileAfter decode encode file r = file ∨
    ∃ t c, asks decode file r = true ∧ r.saved = some t ∧ refreshCache r.answer (loadCache decode file r.start) t = some c ∧
      fileAfter decode encode file r = some (encode c) ∧ c.checkedAt = t ∧ ∀ now, t ≤ now → Usable decode (some (encode c)) now c := by
  unfold fileAfter asks
  cases hs : startRefresh r.env decode file r.start r.current with
  | none => exact .inl rfl
  | some cached =>
    obtain rfl := start_cached hs
    cases ht : r.saved with
    | none => exact .inl rfl
    | some t =>
      dsimp only
      cases hc : refreshCache r.answer (loadCache decode file r.start) t with
      | none => exact .inl rfl
      | some c =>
        obtain ⟨h1, h2, -⟩ := (C53_refresh ..).mp hc
        exact .inr ⟨t, c, rfl, rfl, hc, rfl, h1, fun now hn => ⟨_, rfl, hj c, h2, by omega⟩⟩

theorem between_step (hj : ∀ c, decode (encode c) = some c) {lo hi : Int} {file : Option (List UInt8)} {r : Invocation} (h : Between decode lo hi file)
    (hlo : lo ≤ hi) (h1 : hi ≤ r.start) (h2 : r.start ≤ r.stop) (h3 : ∀ s, r.saved = some s → r.start ≤ s ∧ s ≤ r.stop) :
    Between decode lo r.stop (fileAfter decode encode file r) := by
  rcases fileAfter_cases (decode := decode) (encode := encode) hj file r with h4 | ⟨t, c, -, h5, -, h6, h7, h8⟩
  · rw [h4]; exact h.later (by omega)
  · obtain ⟨h9, h10⟩ := h3 t h5
    rw [h6]
    exact ⟨c, h8 _ h10, by omega⟩

theorem between_steps (hj : ∀ c, decode (encode c) = some c) {lo : Int} : ∀ {hi : Int} {file : Option (List UInt8)} {rs : List Invocation} {r : Invocation}
    {c : List Invocation}, Between decode lo hi file → lo ≤ hi → InTurn hi (rs ++ r :: c) →
    Between decode lo r.start (filesAfter decode encode file rs) ∧ lo ≤ r.start := by
  intro hi file rs
  induction rs generalizing hi file with
  | nil => intro r c h hlo ht; exact ⟨h.later ht.1, by have := ht.1; omega⟩
  | cons x xs ih =>
    intro r c h hlo ht
    obtain ⟨h1, h2, h3, h4⟩ := ht
    exact ih (between_step hj h hlo h1 h2 h3) (by omega) h4

theorem inTurn_drop {a b : List Invocation} : ∀ {t : Int}, InTurn t (a ++ b) → ∃ t', InTurn t' b := by
  induction a with
  | nil => intro t h; exact ⟨t, h⟩
  | cons x xs ih => intro t h; exact ih h.2.2.2

theorem tells_saves {file : Option (List UInt8)} {r : Invocation} (h : Tells decode file r) (t : Int) :
    ∃ c, refreshCache r.answer (loadCache decode file r.start) t = some c := by
  rcases h with ⟨v, tag, hv, ha⟩ | ⟨c, tag, etag, hu, ha⟩
  · exact ⟨⟨t, v, tag⟩, (C53_refresh ..).mpr ⟨rfl, hv, .inl ⟨tag, ha, rfl⟩⟩⟩
  · refine ⟨⟨t, c.latest, c.etag⟩, (C53_refresh ..).mpr ⟨rfl, ?_, .inr ⟨c, tag, etag, ha, (loadCache_iff ..).mpr hu, rfl, rfl⟩⟩⟩
    obtain ⟨_, _, _, h, _⟩ := hu
    exact h

theorem asks_saves (hj : ∀ c, decode (encode c) = some c) {file : Option (List UInt8)} {r : Invocation} {t : Int} (hk : asks decode file r = true)
    (hs : r.saved = some t) (htell : Tells decode file r) :
    ∃ c, refreshCache r.answer (loadCache decode file r.start) t = some c ∧ fileAfter decode encode file r = some (encode c) ∧
      ∀ now, t ≤ now → Usable decode (fileAfter decode encode file r) now c := by
  obtain ⟨c, hc⟩ := tells_saves htell t
  obtain ⟨h1, h2, -⟩ := (C53_refresh ..).mp hc
  unfold asks at hk
  obtain ⟨cached, hst⟩ := Option.isSome_iff_exists.mp hk
  have he : fileAfter decode encode file r = some (encode c) := by
    unfold fileAfter
    rw [hst, hs]
    dsimp only
    rw [start_cached hst, hc]
  exact ⟨c, hc, he, fun now hn => by rw [he]; exact ⟨_, rfl, hj c, h2, by omega⟩⟩

/-- **C98**, in part: after a request whose answer was saved the server is not asked for 24 hours, by whatever invocations, with
whatever file in the beginning, if the clock does not go back. Missing: requests that fail, or that have not been answered when bab ends
(C98_short_runs). -/
theorem C98_once_a_day_partial (hj : ∀ c, decode (encode c) = some c) {t0 : Int} {file : Option (List UInt8)} {a b c : List Invocation}
    {r r' : Invocation} {t : Int} (hturn : InTurn t0 (a ++ r :: (b ++ r' :: c)))
    (hr : asks decode (filesAfter decode encode file a) r = true) (hs : r.saved = some t) (htell : Tells decode (filesAfter decode encode file a) r)
    (hr' : asks decode (filesAfter decode encode file (a ++ r :: b)) r' = true) : t + day ≤ r'.start := by
  obtain ⟨t1, h1, h2, h3, h4⟩ := inTurn_drop hturn
  obtain ⟨h5, h6⟩ := h3 t hs
  obtain ⟨c0, hc, -, hu⟩ := asks_saves hj hr hs htell
  have hb : Between decode t r.stop (fileAfter decode encode (filesAfter decode encode file a) r) :=
    ⟨c0, hu _ h6, Int.le_of_eq ((C53_refresh ..).mp hc).1.symm⟩
  obtain ⟨⟨c1, h7, h8⟩, -⟩ := between_steps hj hb h6 h4
  have he : filesAfter decode encode file (a ++ r :: b) = filesAfter decode encode (fileAfter decode encode (filesAfter decode encode file a) r) b := by
    unfold filesAfter; rw [List.foldl_append, List.foldl_cons]
  rw [he] at hr'
  have := ((asks_iff _ _).mp hr').2 c1 h7
  omega

/-- **C98** An invocation that asks, and lasts until the answer is saved, announces the release that the server names if it is newer. -/
theorem C98_announced (hj : ∀ c, decode (encode c) = some c) {file : Option (List UInt8)} {r : Invocation} {t : Int} {v tag : Str}
    (hk : asks decode file r = true) (hs : r.saved = some t) (ht : t ≤ r.stop) (ha : r.answer = .response 200 (some v) tag) (hv : v ≠ [])
    (hn : Newer parse gt v r.current) : notice decode encode parse gt file r = some ⟨r.current, v⟩ := by
  obtain ⟨c, hc, -, hu⟩ := asks_saves hj hk hs (.inl ⟨v, tag, hv, ha⟩)
  have hcv : c.latest = v := by
    obtain ⟨-, -, ⟨tag', h, -⟩ | ⟨_, _, _, h, _⟩⟩ := (C53_refresh ..).mp hc
    · rw [ha] at h
      injection h with _ h2 _
      exact (Option.some.inj h2).symm
    · rw [ha] at h; injection h with h1 _ _; cases h1
  exact (C53_notice ..).mpr ⟨((asks_iff _ _).mp hk).1, rfl, c, hu _ ht, hcv.symm, hcv.symm ▸ hn⟩

/-- **C98** The release is announced by all later invocations, too, also those that end at once, until another answer is saved. -/
theorem C98_stays (hj : ∀ c, decode (encode c) = some c) {t0 : Int} {file : Option (List UInt8)} {r r' : Invocation} {b : List Invocation} {t : Int}
    {v tag : Str} (hturn : InTurn t0 (r :: (b ++ [r']))) (hk : asks decode file r = true) (hs : r.saved = some t)
    (ha : r.answer = .response 200 (some v) tag) (hv : v ≠ []) (hb : ∀ x ∈ b ++ [r'], x.saved = none) (he : Enabled r'.env r'.current)
    (hn : Newer parse gt v r'.current) :
    notice decode encode parse gt (filesAfter decode encode file (r :: b)) r' = some ⟨r'.current, v⟩ := by
  obtain ⟨h1, h2, h3, h4⟩ := hturn
  obtain ⟨h5, h6⟩ := h3 t hs
  obtain ⟨c, hc, -, hu⟩ := asks_saves (encode := encode) hj hk hs (.inl ⟨v, tag, hv, ha⟩)
  have hcv : c.latest = v := by
    obtain ⟨-, -, ⟨tag', h, -⟩ | ⟨_, _, _, h, _⟩⟩ := (C53_refresh ..).mp hc
    · rw [ha] at h
      injection h with _ h2 _
      exact (Option.some.inj h2).symm
    · rw [ha] at h; injection h with h1 _ _; cases h1
  have same : ∀ (x : Invocation) (f : Option (List UInt8)), x.saved = none → fileAfter decode encode f x = f := by
    intro x f hx
    unfold fileAfter
    rw [hx]
    split
    · next h => cases h
    · rfl
  have sames : ∀ (b : List Invocation) (f : Option (List UInt8)), (∀ x ∈ b, x.saved = none) → filesAfter decode encode f b = f := by
    intro b
    induction b with
    | nil => intro f _; rfl
    | cons x xs ih =>
      intro f h
      unfold filesAfter
      rw [List.foldl_cons, same x f (h x List.mem_cons_self)]
      exact ih f fun y hy => h y (List.mem_cons_of_mem _ hy)
  have hle : ∀ (b : List Invocation) (t : Int), InTurn t (b ++ [r']) → t ≤ r'.stop := by
    intro b
    induction b with
    | nil => rintro t ⟨k1, k2, -⟩; omega
    | cons x xs ih => rintro t ⟨k1, k2, -, k3⟩; have := ih _ k3; omega
  have hf : filesAfter decode encode file (r :: b) = fileAfter decode encode file r := by
    unfold filesAfter
    rw [List.foldl_cons]
    exact sames b _ fun x hx => hb x (List.mem_append_left _ hx)
  unfold notice
  rw [hf, same r' _ (hb r' (by simp))]
  exact (C53_notice ..).mpr ⟨he, rfl, c, hu _ (by have := hle b _ h4; omega), hcv.symm, hcv.symm ▸ hn⟩

/-- C98 fails: as long as bab ends before the answer has come, each invocation asks the server, no matter how many there are and how
shortly one follows the other, and none shows a notice, whatever the server would answer. -/
theorem C98_short_runs {rs : List Invocation} (h : ∀ r ∈ rs, r.saved = none ∧ Enabled r.env r.current) {a b : List Invocation} {r : Invocation}
    (hr : rs = a ++ r :: b) : asks decode (filesAfter decode encode none a) r = true ∧
      notice decode encode parse gt (filesAfter decode encode none a) r = none := by
  have same : ∀ (x : Invocation) (f : Option (List UInt8)), x.saved = none → fileAfter decode encode f x = f := by
    intro x f hx
    unfold fileAfter
    rw [hx]
    split
    · next h => cases h
    · rfl
  have hn : filesAfter decode encode none a = none := by
    have : ∀ x ∈ a, x.saved = none := fun x hx => (h x (by rw [hr]; exact List.mem_append_left _ hx)).1
    clear hr
    induction a with
    | nil => rfl
    | cons x xs ih =>
      unfold filesAfter
      rw [List.foldl_cons, same x none (this x List.mem_cons_self)]
      exact ih fun y hy => this y (List.mem_cons_of_mem _ hy)
  obtain ⟨h1, h2⟩ := h r (by rw [hr]; simp)
  rw [hn]
  refine ⟨(asks_iff _ _).mpr ⟨h2, fun c hc => ?_⟩, ?_⟩
  · obtain ⟨_, hb, _⟩ := hc; cases hb
  · cases hk : notice decode encode parse gt none r with
    | none => rfl
    | some n =>
      unfold notice at hk
      rw [same r none h1] at hk
      obtain ⟨-, -, c, ⟨_, hb, _⟩, -⟩ := (C53_notice ..).mp hk
      cases hb

end

/-! ### The hypotheses can be met -/

namespace Sample

local instance : Encodable Char := Encodable.ofLeftInverse Char.toNat Char.ofNat Char.ofNat_toNat

/-- some way to write the cache file -/
def write (c : Cached) : List UInt8 := List.replicate (Encodable.encode (c.checkedAt, c.latest, c.etag)) 0

/-- and to read it -/
def read (b : List UInt8) : Option Cached := ((Encodable.decode b.length : Option (Int × Str × Str))).map fun x => ⟨x.1, x.2.1, x.2.2⟩

theorem read_write (c : Cached) : read (write c) = some c := by
  unfold read write
  rw [List.length_replicate, Encodable.encodek]
  rfl

/-- an invocation by a user of version 1, when the server has version 2 -/
def visit (start stop : Int) (saved : Option Int) : Invocation :=
  { env := fun _ => [], current := ['1'], start, stop, answer := .response 200 (some ['2']) [], saved }

theorem visit_enabled (a b : Int) (s : Option Int) : Enabled (visit a b s).env (visit a b s).current := by
  unfold Enabled visit
  simp

theorem asks_first (a b : Int) (s : Option Int) : asks read none (visit a b s) = true :=
  (asks_iff _ _).mpr ⟨visit_enabled a b s, fun c hc => by obtain ⟨_, h, _⟩ := hc; cases h⟩

end Sample
open Sample

/-- the first request is answered; the next one follows a day later -/
example : day + 5 ≤ (visit (day + 7) (day + 8) none).start :=
  C98_once_a_day_partial (decode := read) (encode := write) read_write (t0 := 0) (file := none) (a := []) (b := [visit 8 9 none]) (c := [])
    (r := visit 3 7 (some 5)) (r' := visit (day + 7) (day + 8) none)
    (by unfold day; simp [InTurn, visit])
    (asks_first ..) rfl (.inl ⟨['2'], [], by simp, rfl⟩) ((asks_iff _ _).mpr ⟨visit_enabled .., by
      intro c hc
      obtain ⟨c0, h0, h1, -⟩ := asks_saves (encode := write) read_write (asks_first 3 7 (some 5)) rfl (t := 5) (.inl ⟨['2'], [], by simp, rfl⟩)
      have ht : c0.checkedAt = 5 := ((C53_refresh ..).mp h0).1
      have hf : filesAfter read write none [visit 3 7 (some 5), visit 8 9 none] = some (write c0) := by
        unfold filesAfter
        rw [List.foldl_cons, List.foldl_cons, List.foldl_nil, h1]
        unfold fileAfter
        split
        · next h => cases h
        · rfl
      obtain ⟨b, hb, hd, -, -⟩ := hc
      have hb' : some (write c0) = some b := hf.symm.trans hb
      obtain rfl := Option.some.inj hb'
      rw [read_write] at hd
      obtain rfl := Option.some.inj hd
      rw [ht]
      show day + 7 - 5 ≥ day
      omega⟩)

example : notice read write (fun s : Str => some s) (fun a b => a.length ≥ b.length) none (visit 3 7 (some 5)) = some ⟨['1'], ['2']⟩ :=
  C98_announced read_write (asks_first ..) rfl (by decide) rfl (by simp) (by unfold Newer visit; simp)

example : notice read write (fun s : Str => some s) (fun a b => a.length ≥ b.length)
    (filesAfter read write none [visit 3 7 (some 5), visit 8 9 none]) (visit 10 10 none) = some ⟨['1'], ['2']⟩ :=
  C98_stays (t0 := 0) (b := [visit 8 9 none]) (t := 5) read_write (by simp [InTurn, visit]) (asks_first ..) rfl rfl (by simp) (by simp [visit])
    (visit_enabled ..) (by unfold Newer visit; simp)

/-- an invocation in each nanosecond, and as many requests -/
example (i : Nat) : asks read (filesAfter read write none ((List.range i).map fun n : Nat => visit n n none)) (visit i i none) = true :=
  (C98_short_runs (parse := fun s : Str => some s) (gt := fun _ _ => true)
    (rs := (List.range i).map (fun n : Nat => visit n n none) ++ visit i i none :: [])
    (by
      intro r hr
      rcases List.mem_append.mp hr with h | h
      · obtain ⟨n, -, rfl⟩ := List.mem_map.mp h; exact ⟨rfl, visit_enabled ..⟩
      · obtain rfl := List.mem_singleton.mp h; exact ⟨rfl, visit_enabled ..⟩) rfl).1

end Bab.Update
