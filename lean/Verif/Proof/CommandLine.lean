import Verif.Spec.CommandLine
/-
Lemmas about reading the command line.
-/

namespace Bab.CmdLine
open Bab Spec.Words

/-- storing several values in turn -/
def applyAll : Said → Settings → Except Bad Settings
  | [], s => .ok s
  | (f, v) :: l, s => match set f v s with
    | .error e => .error e
    | .ok s' => applyAll l s'

theorem applyAll_append (l l' : Said) (s : Settings) :
    applyAll (l ++ l') s = match applyAll l s with
      | .error e => .error e
      | .ok s' => applyAll l' s' := by
  induction l generalizing s with
  | nil => rfl
  | cons p l ih =>
    obtain ⟨f, v⟩ := p
    rw [List.cons_append, applyAll, applyAll]
    cases set f v s with
    | error e => rfl
    | ok s' => exact ih s'

theorem applyAll_one {f : Flag} {v : Str} {s s' : Settings} : applyAll [(f, v)] s = .ok s' ↔ set f v s = .ok s' := by
  simp only [applyAll]
  cases set f v s <;> simp

theorem short_iff {c : Char} {f : Flag} : shortFlag c = some f ↔ Short c f := by
  unfold Short
  constructor
  · intro h
    unfold shortFlag at h
    split at h <;> (try cases h) <;> simp
  · intro h
    simp only [List.mem_cons, Prod.mk.injEq, List.not_mem_nil, or_false] at h
    rcases h with ⟨rfl, rfl⟩ | ⟨rfl, rfl⟩ | ⟨rfl, rfl⟩ | ⟨rfl, rfl⟩ | ⟨rfl, rfl⟩ | ⟨rfl, rfl⟩ <;> rfl

theorem map_ok {α : Type} {e : Except Bad Settings} {a : α} {p : Settings × α} : e.map (·, a) = .ok p ↔ e = .ok p.1 ∧ a = p.2 := by
  cases e with
  | error e => simp [Except.map]
  | ok s => simp [Except.map, Prod.ext_iff]

/-! ## soundness -/

theorem parseShort_sound {cs : Str} {args : List Str} {s s' : Settings} {rest : List Str} (h : parseShort cs args s = .ok (s', rest)) (hc : cs ≠ []) :
    ∃ next said, args = next ++ rest ∧ Cluster cs next said ∧ applyAll said s = .ok s' := by
  induction cs generalizing s with
  | nil => exact absurd rfl hc
  | cons c cs ih =>
    rw [parseShort] at h
    cases hf : shortFlag c with
    | none => rw [hf] at h; cases h
    | some f =>
      rw [hf] at h
      have hs := short_iff.mp hf
      dsimp only at h
      by_cases h1 : cs.head? = some '=' ∧ 1 < cs.length
      · rw [if_pos h1, map_ok] at h
        obtain ⟨h2, rfl⟩ := h
        match cs, h1 with
        | d :: v, h1 =>
          obtain rfl : d = '=' := by simpa using h1.1
          exact ⟨[], _, rfl, .equals hs (by have := h1.2; intro e; subst e; simp at this), applyAll_one.mpr h2⟩
      · rw [if_neg h1] at h
        by_cases h2 : f.takesValue = false
        · rw [if_pos h2] at h
          cases hset : set f trueText s with
          | error e => rw [hset] at h; cases h
          | ok s1 =>
            rw [hset] at h
            dsimp only at h
            by_cases hn : cs = []
            · subst hn
              rw [parseShort] at h
              injection h with h
              obtain ⟨rfl, rfl⟩ := Prod.mk.inj h
              exact ⟨[], _, rfl, .last hs h2, applyAll_one.mpr hset⟩
            · obtain ⟨next, said, g1, g2, g3⟩ := ih h hn
              exact ⟨next, _, g1, .more hs h2 g2, by rw [applyAll, hset]; exact g3⟩
        · rw [if_neg h2] at h
          have h2' : f.takesValue = true := by simpa using h2
          by_cases hn : cs = []
          · subst hn
            rw [if_neg (by simp)] at h
            cases args with
            | nil => cases h
            | cons a more =>
              rw [map_ok] at h
              obtain ⟨h3, rfl⟩ := h
              exact ⟨[a], _, rfl, .next hs h2', applyAll_one.mpr h3⟩
          · rw [if_pos hn, map_ok] at h
            obtain ⟨h3, rfl⟩ := h
            refine ⟨[], _, rfl, .joined hs h2' hn ?_, applyAll_one.mpr h3⟩
            rintro v' hv' rfl
            exact h1 ⟨rfl, by cases v' with
              | nil => exact absurd rfl hv'
              | cons x y => simp⟩

theorem name_ne (f : Flag) : f.name ≠ [] ∧ f.name.head? ≠ some '-' ∧ f.name.head? ≠ some '=' := by cases f <;> decide

theorem find_name (f : Flag) : Flag.all.find? (fun g => g.name = f.name) = some f := by cases f <;> decide

theorem find_sound {n : Str} {f : Flag} (h : Flag.all.find? (fun g => g.name = n) = some f) : f.name = n := by
  simpa using List.find?_some h

theorem cut_none {s : Str} (h : s.dropWhile (· ≠ '=') = []) : s.takeWhile (· ≠ '=') = s := by
  have := List.takeWhile_append_dropWhile (p := (· ≠ '=')) (l := s)
  rw [h, List.append_nil] at this
  exact this

theorem cut_some {s v : Str} {c : Char} (h : s.dropWhile (· ≠ '=') = c :: v) : s = s.takeWhile (· ≠ '=') ++ '=' :: v := by
  have h1 := List.takeWhile_append_dropWhile (p := (· ≠ '=')) (l := s)
  rw [h] at h1
  have h2 : c = '=' := by
    have := List.head_dropWhile_not (p := (· ≠ '=')) (l := s) (by rw [h]; simp)
    simp only [h, List.head_cons] at this
    simpa using this
  subst h2; exact h1.symm

theorem parseLong_sound {name : Str} {args : List Str} {s s' : Settings} {rest : List Str} (h : parseLong name args s = .ok (s', rest)) :
    ∃ next said, args = next ++ rest ∧ Group (('-' :: '-' :: name) :: next) said ∧ applyAll said s = .ok s' := by
  unfold parseLong at h
  split at h
  · cases h
  · cases hf : Flag.all.find? (fun f => f.name = name.takeWhile (· ≠ '=')) with
    | none => rw [hf] at h; cases h
    | some f =>
      rw [hf] at h
      have hn := find_sound hf
      dsimp only at h
      cases hd : name.dropWhile (· ≠ '=') with
      | cons c v =>
        rw [hd] at h
        obtain ⟨h1, rfl⟩ := map_ok.mp h
        refine ⟨[], [(f, v)], rfl, ?_, applyAll_one.mpr h1⟩
        have := cut_some hd
        rw [← hn] at this
        rw [this]
        exact .equals f v
      | nil =>
        rw [hd] at h
        have := cut_none hd
        rw [this] at hn
        subst hn
        dsimp only at h
        by_cases hv : f.takesValue = true
        · rw [if_pos hv] at h
          cases args with
          | nil => cases h
          | cons a more =>
            obtain ⟨h1, rfl⟩ := map_ok.mp h
            exact ⟨[a], _, rfl, .next hv a, applyAll_one.mpr h1⟩
        · rw [if_neg hv] at h
          obtain ⟨h1, rfl⟩ := map_ok.mp h
          exact ⟨[], _, rfl, .name (by simpa using hv), applyAll_one.mpr h1⟩

/-- adding a group in front -/
theorem line_group {g : List Str} {l : Said} {args : List Str} {said : Said} {words : List Str} (hg : Group g l) (h : Line args said words) :
    Line (g ++ args) (l ++ said) words := by
  cases h with
  | plain h => exact .plain (.group hg h)
  | dashes h more => rw [← List.append_assoc]; exact .dashes (.group hg h) more

theorem line_word {a : Str} {args : List Str} {said : Said} {words : List Str} (ha : IsWord a) (h : Line args said words) :
    Line (a :: args) said (a :: words) := by
  cases h with
  | plain h => exact .plain (.word ha h)
  | dashes h more => exact .dashes (args := a :: _) (.word ha h) more

theorem parseArgs_sound {fuel : Nat} {args : List Str} {s s' : Settings} {words ws : List Str} (hf : args.length ≤ fuel)
    (h : parseArgs fuel args s words = .ok (s', ws)) : ∃ said ws', Line args said ws' ∧ ws = words ++ ws' ∧ applyAll said s = .ok s' := by
  have done : ∀ {s s' : Settings} {words ws : List Str}, (Except.ok (s, words) : Except Bad _) = .ok (s', ws) →
      ∃ said ws', Line [] said ws' ∧ ws = words ++ ws' ∧ applyAll said s = .ok s' := by
    intro s s' words ws h
    injection h with h
    obtain ⟨rfl, rfl⟩ := Prod.mk.inj h
    exact ⟨[], [], .plain .nil, by simp, rfl⟩
  induction fuel generalizing args s words with
  | zero =>
    obtain rfl : args = [] := List.length_eq_zero_iff.mp (by omega)
    exact done h
  | succ fuel ih =>
    cases args with
    | nil => exact done h
    | cons a args =>
      simp only [List.length_cons] at hf
      rw [parseArgs.eq_def] at h
      dsimp only at h
      split at h
      · injection h with h
        obtain ⟨rfl, rfl⟩ := Prod.mk.inj h
        exact ⟨[], args, .dashes .nil args, rfl, rfl⟩
      · next name _ =>
        split at h
        · cases h
        · next s1 rest hp =>
          obtain ⟨next, said, rfl, h2, h3⟩ := parseLong_sound hp
          rw [List.length_append] at hf
          obtain ⟨said', ws', g1, g2, g3⟩ := ih (by omega) h
          exact ⟨said ++ said', ws', line_group h2 g1, g2, by rw [applyAll_append, h3]; exact g3⟩
      · next c more _ =>
        split at h
        · cases h
        · next s1 rest hp =>
          obtain ⟨next, said, rfl, h2, h3⟩ := parseShort_sound hp (by simp)
          rw [List.length_append] at hf
          obtain ⟨said', ws', g1, g2, g3⟩ := ih (by omega) h
          exact ⟨said ++ said', ws', line_group (.shorts h2) g1, g2, by rw [applyAll_append, h3]; exact g3⟩
      · next h1 h2 h3 =>
        obtain ⟨said', ws', g1, g2, g3⟩ := ih (by omega) h
        refine ⟨said', a :: ws', line_word ?_ g1, by rw [g2]; simp, g3⟩
        match a with
        | [] => exact .inr (by simp)
        | [c] =>
          by_cases hc : c = '-'
          · exact .inl (by rw [hc])
          · exact .inr (by simpa using hc)
        | c :: d :: e =>
          right
          simp only [List.head?_cons, ne_eq, Option.some.injEq]
          rintro rfl
          exact h3 d e rfl

/-! ## completeness -/

theorem cluster_head {cs : Str} {next : List Str} {said : Said} (h : Cluster cs next said) : ∃ c r f, cs = c :: r ∧ Short c f := by
  cases h with
  | last h => exact ⟨_, _, _, rfl, h⟩
  | more h => exact ⟨_, _, _, rfl, h⟩
  | equals h => exact ⟨_, _, _, rfl, h⟩
  | joined h => exact ⟨_, _, _, rfl, h⟩
  | next h => exact ⟨_, _, _, rfl, h⟩

theorem parseShort_complete {cs : Str} {next : List Str} {said : Said} (h : Cluster cs next said) {s : Settings} (rest : List Str) :
    parseShort cs (next ++ rest) s = (applyAll said s).map (·, rest) := by
  induction h generalizing s with
  | last h hv =>
    rw [parseShort, short_iff.mpr h]
    dsimp only
    rw [if_neg (by simp), if_pos hv, applyAll]
    cases set _ trueText s <;> rfl
  | @more c f cs next said h hv hr ih =>
    obtain ⟨d, r, g, rfl, hd⟩ := cluster_head hr
    have hne : ¬ ((d :: r).head? = some '=' ∧ 1 < (d :: r).length) := by
      rintro ⟨h1, -⟩
      obtain rfl : d = '=' := by simpa using h1
      revert hd; unfold Short; simp
    rw [parseShort, short_iff.mpr h]
    dsimp only
    rw [if_neg hne, if_pos hv, applyAll]
    cases set f trueText s with
    | error e => rfl
    | ok s' => exact ih
  | @equals c f v h hn =>
    rw [parseShort, short_iff.mpr h]
    dsimp only
    rw [if_pos ⟨rfl, by cases v with
      | nil => exact absurd rfl hn
      | cons x y => simp⟩]
    simp only [applyAll, List.nil_append, List.drop_succ_cons, List.drop_zero]
    cases set f v s <;> rfl
  | @joined c f v h hv hn he =>
    rw [parseShort, short_iff.mpr h]
    dsimp only
    have hne : ¬ (v.head? = some '=' ∧ 1 < v.length) := by
      rintro ⟨h1, h2⟩
      match v with
      | [] => exact hn rfl
      | d :: w =>
        obtain rfl : d = '=' := by simpa using h1
        exact he w (by intro e; subst e; simp at h2) rfl
    rw [if_neg hne, if_neg (by simp [hv]), if_pos hn]
    simp only [applyAll, List.nil_append]
    cases set f v s <;> rfl
  | @next c f v h hv =>
    rw [parseShort, short_iff.mpr h]
    dsimp only
    rw [if_neg (by simp), if_neg (by simp [hv]), if_neg (by simp)]
    simp only [applyAll, List.singleton_append]
    cases set f v s <;> rfl

theorem takeWhile_name (f : Flag) (r : Str) : (f.name ++ '=' :: r).takeWhile (· ≠ '=') = f.name := by cases f <;> rfl
theorem dropWhile_name (f : Flag) (r : Str) : (f.name ++ '=' :: r).dropWhile (· ≠ '=') = '=' :: r := by cases f <;> rfl
theorem takeWhile_name' (f : Flag) : f.name.takeWhile (· ≠ '=') = f.name := by cases f <;> rfl
theorem dropWhile_name' (f : Flag) : f.name.dropWhile (· ≠ '=') = [] := by cases f <;> rfl

theorem parseArgs_long {name : Str} (hn : name ≠ []) (args : List Str) (s : Settings) (fuel : Nat) (words : List Str) :
    parseArgs (fuel + 1) (('-' :: '-' :: name) :: args) s words = match parseLong name args s with
      | .error e => .error e
      | .ok (s', rest) => parseArgs fuel rest s' words := by
  cases name with
  | nil => exact absurd rfl hn
  | cons c n => rfl

theorem parseArgs_short {c : Char} (hc : c ≠ '-') (more : Str) (args : List Str) (s : Settings) (fuel : Nat) (words : List Str) :
    parseArgs (fuel + 1) (('-' :: c :: more) :: args) s words = match parseShort (c :: more) args s with
      | .error e => .error e
      | .ok (s', rest) => parseArgs fuel rest s' words := by
  rw [parseArgs.eq_def]
  dsimp only
  split
  · next h => injection h with _ h; injection h with h; exact absurd h hc
  · next h => injection h with _ h; injection h with h; exact absurd h hc
  · next h =>
    injection h with _ h
    injection h with h1 h2
    subst h1 h2
    rfl
  · next h => exact absurd rfl (h c more)

theorem parseArgs_word {a : Str} (ha : IsWord a) (args : List Str) (s : Settings) (fuel : Nat) (words : List Str) :
    parseArgs (fuel + 1) (a :: args) s words = parseArgs fuel args s (words ++ [a]) := by
  rw [parseArgs.eq_def]
  dsimp only
  split
  · rcases ha with h | h
    · cases h
    · exact absurd rfl h
  · rcases ha with h | h
    · cases h
    · exact absurd rfl h
  · rcases ha with h | h
    · cases h
    · exact absurd rfl h
  · rfl

theorem parseLong_name {f : Flag} (hv : f.takesValue = false) (a : List Str) (s : Settings) :
    parseLong f.name a s = (applyAll [(f, trueText)] s).map (·, a) := by
  unfold parseLong
  rw [if_neg (by have := name_ne f; simp [this]), takeWhile_name', find_name]
  dsimp only
  rw [dropWhile_name']
  dsimp only
  rw [if_neg (by simp [hv])]
  simp only [applyAll]
  cases set f trueText s <;> rfl

theorem parseLong_equals (f : Flag) (v : Str) (a : List Str) (s : Settings) :
    parseLong (f.name ++ '=' :: v) a s = (applyAll [(f, v)] s).map (·, a) := by
  have hn : ¬ (f.name ++ '=' :: v = [] ∨ (f.name ++ '=' :: v).head? = some '-' ∨ (f.name ++ '=' :: v).head? = some '=') := by
    cases f <;> simp [Flag.name]
  unfold parseLong
  rw [if_neg hn, takeWhile_name, find_name]
  dsimp only
  rw [dropWhile_name]
  simp only [applyAll]
  cases set f v s <;> rfl

theorem parseLong_next {f : Flag} (hv : f.takesValue = true) (v : Str) (a : List Str) (s : Settings) :
    parseLong f.name (v :: a) s = (applyAll [(f, v)] s).map (·, a) := by
  unfold parseLong
  rw [if_neg (by have := name_ne f; simp [this]), takeWhile_name', find_name]
  dsimp only
  rw [dropWhile_name']
  dsimp only
  rw [if_pos hv]
  simp only [applyAll]
  cases set f v s <;> rfl

/-- reading a group -/
theorem group_step {g : List Str} {l : Said} (hg : Group g l) (args : List Str) (s : Settings) (fuel : Nat) (words : List Str) :
    parseArgs (fuel + 1) (g ++ args) s words = match applyAll l s with
      | .error e => .error e
      | .ok s' => parseArgs fuel args s' words := by
  cases hg with
  | @name f hv =>
    rw [List.singleton_append, parseArgs_long (name_ne f).1, parseLong_name hv]
    cases applyAll [(f, trueText)] s <;> rfl
  | equals f v =>
    rw [List.singleton_append]
    show parseArgs (fuel + 1) (('-' :: '-' :: (f.name ++ '=' :: v)) :: args) s words = _
    rw [parseArgs_long (by simp), parseLong_equals]
    cases applyAll [(f, v)] s <;> rfl
  | @next f hv v =>
    rw [List.cons_append, List.singleton_append, parseArgs_long (name_ne f).1, parseLong_next hv]
    cases applyAll [(f, v)] s <;> rfl
  | @shorts cs next _ h =>
    obtain ⟨c, r, f, rfl, hs⟩ := cluster_head h
    have hc : c ≠ '-' := by rintro rfl; revert hs; unfold Short; simp
    rw [List.cons_append, parseArgs_short hc, parseShort_complete h]
    cases applyAll l s <;> rfl

theorem group_length {g : List Str} {l : Said} (hg : Group g l) : 1 ≤ g.length := by
  cases hg <;> simp

/-- reading a part, and then the rest -/
theorem part_step {args : List Str} {said : Said} {ws : List Str} (hp : Part args said ws) (more : List Str) (s : Settings) (fuel : Nat)
    (words : List Str) (hf : args.length + more.length ≤ fuel) :
    ∃ fuel', more.length ≤ fuel' ∧ parseArgs fuel (args ++ more) s words = match applyAll said s with
      | .error e => .error e
      | .ok s' => parseArgs fuel' more s' (words ++ ws) := by
  induction hp generalizing s fuel words with
  | nil => exact ⟨fuel, by simpa using hf, by simp [applyAll]⟩
  | @word a args said ws ha _ ih =>
    simp only [List.length_cons] at hf
    obtain ⟨k, rfl⟩ : ∃ k, fuel = k + 1 := ⟨fuel - 1, by omega⟩
    obtain ⟨fuel', h1, h2⟩ := ih s k (words ++ [a]) (by omega)
    refine ⟨fuel', h1, ?_⟩
    rw [List.cons_append, parseArgs_word ha, h2]
    simp
  | @group g l args said ws hg _ ih =>
    have := group_length hg
    rw [List.length_append] at hf
    obtain ⟨k, rfl⟩ : ∃ k, fuel = k + 1 := ⟨fuel - 1, by omega⟩
    rw [List.append_assoc, group_step hg, applyAll_append]
    cases applyAll l s with
    | error e => exact ⟨more.length, Nat.le_refl _, rfl⟩
    | ok s1 => exact ih s1 k words (by omega)

theorem parseArgs_nil (fuel : Nat) (s : Settings) (words : List Str) : parseArgs fuel [] s words = .ok (s, words) := by
  cases fuel <;> rfl

theorem readArgs_line {args : List Str} {said : Said} {ws : List Str} (h : Line args said ws) : readArgs args = (applyAll said {}).map (·, ws) := by
  unfold readArgs
  cases h with
  | plain h =>
    obtain ⟨fuel', -, h2⟩ := part_step h [] {} args.length [] (by simp)
    rw [List.append_nil] at h2
    rw [h2]
    cases applyAll said {} with
    | error e => rfl
    | ok s => dsimp only; rw [parseArgs_nil]; rfl
  | @dashes args _ ws h more =>
    obtain ⟨fuel', h1, h2⟩ := part_step h (['-', '-'] :: more) {} (args ++ ['-', '-'] :: more).length [] (by rw [List.length_append]; exact Nat.le_refl _)
    rw [h2]
    cases applyAll said {} with
    | error e => rfl
    | ok s =>
      obtain ⟨k, rfl⟩ : ∃ k, fuel' = k + 1 := ⟨fuel' - 1, by simp at h1; omega⟩
      rfl

theorem readArgs_ok {args : List Str} {s : Settings} {ws : List Str} :
    readArgs args = .ok (s, ws) ↔ ∃ said, Line args said ws ∧ applyAll said {} = .ok s := by
  constructor
  · intro h
    obtain ⟨said, ws', h1, h2, h3⟩ := parseArgs_sound (Nat.le_refl _) h
    rw [List.nil_append] at h2
    subst h2
    exact ⟨said, h1, h3⟩
  · rintro ⟨said, h1, h2⟩
    rw [readArgs_line h1, h2]; rfl

/-! ## what the settings are -/

theorem lastSaid_snoc (g f : Flag) (v : Str) (l : Said) : lastSaid g (l ++ [(f, v)]) = if f = g then some v else lastSaid g l := by
  unfold lastSaid
  rw [List.reverse_append, List.reverse_singleton, List.singleton_append, List.find?_cons]
  by_cases h : f = g
  · subst h; simp
  · simp [h]

/-- the settings that are meant -/
def meant (said : Said) : Settings :=
  { verbose := On .verbose said, dryRun := On .dryRun said, babfile := Text .babfile said, list := On .list said,
    validate := On .validate said, completion := Text .completion said, help := On .help said, version := On .version said }

theorem on_snoc (g f : Flag) (v : Str) (l : Said) : On g (l ++ [(f, v)]) = if f = g then parseBool v == some true else On g l := by
  unfold On
  rw [lastSaid_snoc]
  split <;> rfl

theorem text_snoc (g f : Flag) (v : Str) (l : Said) : Text g (l ++ [(f, v)]) = if f = g then v else Text g l := by
  unfold Text
  rw [lastSaid_snoc]
  split <;> rfl

theorem set_meant {f : Flag} {v : Str} {l : Said} (h : f.takesValue = false → parseBool v ≠ none) :
    set f v (meant l) = .ok (meant (l ++ [(f, v)])) := by
  unfold meant
  simp only [on_snoc, text_snoc]
  cases f with
  | babfile => rfl
  | completion => rfl
  | _ =>
    obtain ⟨b, hb⟩ := Option.ne_none_iff_exists'.mp (h rfl)
    cases b <;> simp [set, hb]

theorem set_bad {f : Flag} {v : Str} {s s' : Settings} (h : set f v s = .ok s') (hf : f.takesValue = false) : parseBool v ≠ none := by
  intro hb
  cases f with
  | babfile => cases hf
  | completion => cases hf
  | _ => simp [set, hb] at h

theorem applyAll_iff {said : Said} {s : Settings} : applyAll said {} = .ok s ↔ Sensible said ∧ Means said s := by
  have key' : ∀ (said pre : Said), (Sensible said → applyAll said (meant pre) = .ok (meant (pre ++ said))) ∧
      ∀ s, applyAll said (meant pre) = .ok s → Sensible said := by
    intro said
    induction said with
    | nil => exact fun pre => ⟨fun _ => by rw [List.append_nil]; rfl, fun _ _ f v h => nomatch h⟩
    | cons p l ih =>
      obtain ⟨f, v⟩ := p
      intro pre
      have hcons : pre ++ (f, v) :: l = (pre ++ [(f, v)]) ++ l := by simp
      constructor
      · intro hs
        rw [applyAll, set_meant (hs f v (by simp)), hcons]
        exact (ih _).1 (fun f v h => hs f v (List.mem_cons_of_mem _ h))
      · intro s h
        have hb : f.takesValue = false → parseBool v ≠ none := by
          intro hf
          rw [applyAll] at h
          cases hset : set f v (meant pre) with
          | error e => rw [hset] at h; cases h
          | ok s1 => exact set_bad hset hf
        rw [applyAll, set_meant hb] at h
        intro g w hm hg
        rcases List.mem_cons.mp hm with hm | hm
        · obtain ⟨rfl, rfl⟩ := Prod.mk.inj hm
          exact hb hg
        · exact (ih _).2 s h g w hm hg
  have key : ∀ said : Said, (Sensible said → applyAll said {} = .ok (meant said)) ∧ ∀ s, applyAll said {} = .ok s → Sensible said :=
    fun said => key' said []
  constructor
  · intro h
    have hs := (key said).2 s h
    rw [(key said).1 hs] at h
    exact ⟨hs, (Except.ok.inj h).symm⟩
  · rintro ⟨hs, hm⟩
    rw [(key said).1 hs, hm]; rfl

end Bab.CmdLine
