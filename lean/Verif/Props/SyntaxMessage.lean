import Verif.Props.Faults
import Verif.Proof.Condition
import Mathlib.Data.List.Infix
/-
C75: A syntax error is shown at its line. The YAML library says `yaml: line N: what is wrong`; bab shows
`<file>:N: what is wrong`.
-/

namespace Bab.Yaml
open Bab

/-- no line is mentioned in the text -/
def Spec.NoMention (s : Str) : Prop := ∀ a c b, s = a ++ "line ".toList ++ c :: b → c.isDigit = false

/-- a text without space at its ends -/
def Spec.Neat (s : Str) : Prop := (∀ c, s.head? = some c → ¬ Bab.Spec.WhiteSpace c) ∧ (∀ c, s.getLast? = some c → ¬ Bab.Spec.WhiteSpace c)

/-- the two ways the YAML library begins a message about a line -/
def Spec.beginnings : List Str := ["yaml: line ".toList, "yaml: unmarshal errors:\n  line ".toList]

open Bab.Yaml.Spec

theorem lineHere_ne {c : Char} {s : Str} (h : c ≠ 'l') : lineHere (c :: s) = none := by
  unfold lineHere
  rw [if_neg]
  simp [List.isPrefixOf, Ne.symm h]

theorem lineHere_none {s : Str} (h : ∀ c b, s = "line ".toList ++ c :: b → c.isDigit = false) : lineHere s = none := by
  unfold lineHere
  split
  · next hp =>
    obtain ⟨t, rfl⟩ := List.isPrefixOf_iff_prefix.mp hp
    have hd : (("line ".toList ++ t).drop 5).takeWhile Char.isDigit = [] := by
      show t.takeWhile Char.isDigit = []
      cases t with
      | nil => rfl
      | cons c b => rw [List.takeWhile_cons, h c b rfl]; rfl
    dsimp only
    rw [hd, if_pos rfl]
  · rfl

theorem NoMention.tail {c : Char} {s : Str} (h : NoMention (c :: s)) : NoMention s := by
  intro a d b he
  exact h (c :: a) d b (by rw [he]; rfl)

theorem NoMention.head {s : Str} (h : NoMention s) : lineHere s = none :=
  lineHere_none fun c b he => h [] c b he

theorem firstLine_none {s : Str} (h : NoMention s) : firstLine s = none := by
  induction s with
  | nil => rfl
  | cons c s ih => rw [firstLine, NoMention.head h]; exact ih (NoMention.tail h)

theorem removeLines_none {s : Str} (h : NoMention s) (f : Nat) : removeLines f s = s := by
  induction s generalizing f with
  | nil => cases f <;> rfl
  | cons c s ih =>
    cases f with
    | zero => rfl
    | succ f => rw [removeLines, NoMention.head h]; dsimp only; rw [ih (NoMention.tail h)]

theorem removeLines_sublist (f : Nat) (s : Str) : List.Sublist (removeLines f s) s := by
  induction f generalizing s with
  | zero => exact List.Sublist.refl _
  | succ f ih =>
    cases s with
    | nil => exact List.Sublist.refl _
    | cons c s =>
      rw [removeLines]
      split
      · next ds rest hl =>
        refine (ih rest).trans ?_
        unfold lineHere at hl
        split at hl
        · dsimp only at hl
          split at hl
          · cases hl
          · have := (Option.some.inj hl)
            rw [← (Prod.mk.inj this).2]
            have h1 : List.Sublist (((c :: s).drop 5).dropWhile Char.isDigit) (c :: s) := (List.dropWhile_sublist _).trans (List.drop_sublist _ _)
            split
            · exact (List.tail_sublist _).trans h1
            · exact h1
        · cases hl
      · exact (ih s).cons_cons c

theorem trimSpace_sublist (s : Str) : List.Sublist (trimSpace s) s := by
  unfold trimSpace trimFunc
  have h := (List.dropWhile_sublist isGoSpace (l := (s.dropWhile isGoSpace).reverse)).reverse
  rw [List.reverse_reverse] at h
  exact h.trans (List.dropWhile_sublist _)

theorem trimPrefix_sublist (p s : Str) : List.Sublist (trimPrefix p s) s := by
  unfold trimPrefix
  split
  · exact List.drop_sublist _ _
  · exact List.Sublist.refl _

theorem atoi_digits {ds : Str} (hne : ds ≠ []) (hd : ∀ c ∈ ds, c.isDigit = true) {n : Nat}
    (hval : ds.foldl (fun (a : Int) c => a * 10 + ((c.toNat - '0'.toNat : Nat) : Int)) 0 = (n : Int)) (h : n ≤ 9223372036854775807) : atoi ds = some (n : Int) := by
  unfold atoi
  have hok : ¬ (ds = [] ∨ ¬ ds.all (fun c => '0' ≤ c ∧ c ≤ '9')) := by
    rintro (h0 | h0)
    · exact hne h0
    · apply h0
      rw [List.all_eq_true]
      intro c hc
      have := hd c hc
      rw [Char.isDigit] at this
      simp only [Bool.and_eq_true, decide_eq_true_eq] at this ⊢
      exact this
  split
  · next neg ds' heq =>
    split at heq
    · exact absurd (hd '-' (by simp)) (by decide)
    · exact absurd (hd '+' (by simp)) (by decide)
    · cases heq
      rw [if_neg hok]
      dsimp only
      rw [if_neg Bool.false_ne_true, hval, if_neg (by omega)]

/-- a number, written and read -/
theorem atoi_repr {n : Nat} (h : n ≤ 9223372036854775807) : atoi (Nat.repr n).toList = some (n : Int) := by
  have hd : ∀ c ∈ (Nat.repr n).toList, c.isDigit = true := fun c hc => by
    rw [Nat.toList_repr] at hc
    exact Nat.isDigit_of_mem_toDigits (b := 10) (by omega) (by omega) hc
  have hne : (Nat.repr n).toList ≠ [] := by rw [Nat.toList_repr]; exact Nat.toDigits_ne_nil
  have hval : (Nat.repr n).toList.foldl (fun (a : Int) c => a * 10 + ((c.toNat - '0'.toNat : Nat) : Int)) 0 = (n : Int) := by
    have h1 : Nat.ofDigitChars 10 (Nat.repr n).toList 0 = n := by rw [Nat.toList_repr]; simp [Nat.ofDigitChars_toDigits]
    have h2 : ∀ (l : List Char) (k : Nat), l.foldl (fun (a : Int) c => a * 10 + ((c.toNat - '0'.toNat : Nat) : Int)) (k : Int) = ((Nat.ofDigitChars 10 l k : Nat) : Int) := by
      intro l
      induction l with
      | nil => intro k; rfl
      | cons c l ih =>
        intro k
        rw [List.foldl_cons, Nat.ofDigitChars_cons]
        have := ih (10 * k + (c.toNat - '0'.toNat))
        rw [← this]
        congr 1
        push_cast
        omega
    have := h2 (Nat.repr n).toList 0
    rw [h1] at this
    exact this
  generalize (Nat.repr n).toList = ds at *
  exact atoi_digits hne hd hval h

theorem lineHere_repr (n : Nat) (rest : Str) : lineHere ("line ".toList ++ (Nat.repr n).toList ++ ':' :: rest) = some ((Nat.repr n).toList, rest) := by
  have hd : ∀ c ∈ (Nat.repr n).toList, c.isDigit = true := fun c hc => by
    rw [Nat.toList_repr] at hc
    exact Nat.isDigit_of_mem_toDigits (b := 10) (by omega) (by omega) hc
  have hne : (Nat.repr n).toList ≠ [] := by rw [Nat.toList_repr]; exact Nat.toDigits_ne_nil
  generalize (Nat.repr n).toList = ds at *
  unfold lineHere
  rw [if_pos (List.isPrefixOf_iff_prefix.mpr (by rw [List.append_assoc]; exact List.prefix_append _ _))]
  have hdrop : ("line ".toList ++ ds ++ ':' :: rest).drop 5 = ds ++ ':' :: rest := by rw [List.append_assoc]; rfl
  have h1 : (ds ++ ':' :: rest).takeWhile Char.isDigit = ds := by
    rw [List.takeWhile_append_of_pos hd]
    show ds ++ [] = ds
    rw [List.append_nil]
  have h2 : (ds ++ ':' :: rest).dropWhile Char.isDigit = ':' :: rest := by
    rw [List.dropWhile_append_of_pos hd]; rfl
  rw [hdrop]
  dsimp only
  rw [h1, h2, if_neg hne]
  rfl

theorem firstLine_skip {c : Char} {s : Str} (h : lineHere (c :: s) = none) : firstLine (c :: s) = firstLine s := by
  rw [firstLine, h]

theorem firstLine_begin {b : Str} (hb : b ∈ beginnings) (n : Nat) (rest : Str) : firstLine (b ++ (Nat.repr n).toList ++ ':' :: rest) = some (Nat.repr n).toList := by
  have key : firstLine ("line ".toList ++ (Nat.repr n).toList ++ ':' :: rest) = some (Nat.repr n).toList := by
    show firstLine ('l' :: ("ine ".toList ++ (Nat.repr n).toList ++ ':' :: rest)) = _
    rw [firstLine, show ('l' :: ("ine ".toList ++ (Nat.repr n).toList ++ ':' :: rest)) = "line ".toList ++ (Nat.repr n).toList ++ ':' :: rest from rfl, lineHere_repr]
  have skip : ∀ (p s : Str), (∀ a c p', p = a ++ c :: p' → lineHere (c :: (p' ++ s)) = none) → firstLine (p ++ s) = firstLine s := by
    intro p
    induction p with
    | nil => intro s _; rfl
    | cons c p ih =>
      intro s h
      rw [List.cons_append, firstLine_skip (h [] c p rfl)]
      exact ih s fun a d p' he => h (c :: a) d p' (by rw [he]; rfl)
  have no : ∀ (p s : Str), (∀ t ∈ p.tails, t ≠ [] → ("line ".toList.isPrefixOf t = false ∧ 5 ≤ t.length) ∨ t.head? ≠ some 'l' ∨ (t.length ≥ 2 ∧ t[1]? ≠ some 'i')) →
      ∀ a c p', p = a ++ c :: p' → lineHere (c :: (p' ++ s)) = none := by
    intro p s h a c p' he
    have := h (c :: p') (by rw [List.mem_tails, he]; exact List.suffix_append _ _) (by simp)
    rcases this with ⟨h1, h2⟩ | h1 | ⟨h1, h2⟩
    · unfold lineHere
      rw [if_neg]
      intro hp
      have hp := List.isPrefixOf_iff_prefix.mp hp
      have : "line ".toList <+: (c :: p') := List.prefix_of_prefix_length_le hp (by rw [← List.cons_append]; exact List.prefix_append _ _) h2
      rw [List.isPrefixOf_iff_prefix.mpr this] at h1
      cases h1
    · exact lineHere_ne (by simpa using h1)
    · match p', h1, h2 with
      | d :: p'', _, h2 =>
        unfold lineHere
        rw [if_neg]
        have : d ≠ 'i' := by simpa using h2
        simp [List.isPrefixOf, Ne.symm this]
  rcases List.mem_cons.mp hb with rfl | hb
  · have := skip "yaml: ".toList ("line ".toList ++ (Nat.repr n).toList ++ ':' :: rest) (no _ _ (by decide))
    rw [← key, ← this]; rfl
  · obtain rfl := List.mem_singleton.mp hb
    have := skip "yaml: unmarshal errors:\n  ".toList ("line ".toList ++ (Nat.repr n).toList ++ ':' :: rest) (no _ _ (by decide))
    rw [← key, ← this]; rfl

theorem trimPrefix_append (p s : Str) : trimPrefix p (p ++ s) = s := by
  unfold trimPrefix
  rw [if_pos (List.isPrefixOf_iff_prefix.mpr (List.prefix_append _ _)), List.drop_left]

/-- **C75** The line is the one the YAML library names, whatever it says about it. -/
theorem C75_place (x : ReadTexts) {b : Str} (hb : b ∈ beginnings) (n : Nat) (hn : 0 < n) (hmax : n ≤ 9223372036854775807) (rest : Str) :
    ∃ reason, (syntaxError x (b ++ (Nat.repr n).toList ++ ':' :: rest)).text = relativePath x.cwd x.path ++ ':' :: (Nat.repr n).toList ++ ": ".toList ++ reason := by
  have he : extractYAMLLocation (b ++ (Nat.repr n).toList ++ ':' :: rest) = n := by
    unfold extractYAMLLocation
    rw [firstLine_begin hb, Option.bind_some, atoi_repr hmax]
    rfl
  unfold syntaxError
  dsimp only
  rw [he, text_wrap]
  unfold formatLocation
  dsimp only
  rw [if_pos hn, if_neg (by simp)]
  exact ⟨_, rfl⟩

/-- **C75** The message of the YAML library about a line is shown behind the file and the line. -/
theorem C75_line (x : ReadTexts) {b : Str} (hb : b ∈ beginnings) (n : Nat) (hn : 0 < n) (hmax : n ≤ 9223372036854775807) {msg : Str}
    (h0 : msg ≠ []) (hm : NoMention msg) (ht : Neat msg) :
    (syntaxError x (b ++ (Nat.repr n).toList ++ ": ".toList ++ msg)).text = relativePath x.cwd x.path ++ ':' :: (Nat.repr n).toList ++ ": ".toList ++ msg := by
  have hs : b ++ (Nat.repr n).toList ++ ": ".toList ++ msg = b ++ (Nat.repr n).toList ++ ':' :: (' ' :: msg) := by
    rw [List.append_assoc]; rfl
  have he : extractYAMLLocation (b ++ (Nat.repr n).toList ++ ':' :: (' ' :: msg)) = n := by
    unfold extractYAMLLocation
    rw [firstLine_begin hb, Option.bind_some, atoi_repr hmax]
    rfl
  have hmention : NoMention (' ' :: msg) := by
    intro a c r hr
    cases a with
    | nil => exact absurd (List.cons.inj hr).1 (by decide)
    | cons d a => exact hm a c r (List.cons.inj hr).2
  have hcut : trimPrefix "unmarshal errors:\n  ".toList (trimPrefix "yaml: ".toList (b ++ (Nat.repr n).toList ++ ':' :: (' ' :: msg))) =
      "line ".toList ++ (Nat.repr n).toList ++ ':' :: (' ' :: msg) := by
    rw [List.append_assoc, List.append_assoc]
    generalize (Nat.repr n).toList ++ ':' :: (' ' :: msg) = rest
    rcases List.mem_cons.mp hb with rfl | hb
    · rw [show "yaml: line ".toList ++ rest = "yaml: ".toList ++ ("line ".toList ++ rest) from rfl, trimPrefix_append]
      unfold trimPrefix
      rw [if_neg]
      intro h
      exact absurd (List.cons_prefix_cons.mp (List.isPrefixOf_iff_prefix.mp h)).1 (by decide)
    · obtain rfl := List.mem_singleton.mp hb
      rw [show "yaml: unmarshal errors:\n  line ".toList ++ rest = "yaml: ".toList ++ ("unmarshal errors:\n  ".toList ++ ("line ".toList ++ rest)) from rfl,
        trimPrefix_append, trimPrefix_append]
  have hclean : cleanYAMLError (b ++ (Nat.repr n).toList ++ ':' :: (' ' :: msg)) = msg := by
    unfold cleanYAMLError
    dsimp only
    rw [hcut]
    have hrem : ∀ f, removeLines (f + 1) ("line ".toList ++ (Nat.repr n).toList ++ ':' :: (' ' :: msg)) = ' ' :: msg := by
      intro f
      show removeLines (f + 1) ('l' :: ("ine ".toList ++ (Nat.repr n).toList ++ ':' :: (' ' :: msg))) = _
      rw [removeLines, show ('l' :: ("ine ".toList ++ (Nat.repr n).toList ++ ':' :: (' ' :: msg))) = "line ".toList ++ (Nat.repr n).toList ++ ':' :: (' ' :: msg) from rfl, lineHere_repr]
      dsimp only
      exact removeLines_none hmention f
    have hlen : ∃ f, ("line ".toList ++ (Nat.repr n).toList ++ ':' :: (' ' :: msg)).length = f + 1 := ⟨_, rfl⟩
    obtain ⟨f, hf⟩ := hlen
    rw [hf, hrem]
    exact trimSpace_eq ⟨[' '], [], by simp, by intro c hc; rw [List.mem_singleton.mp hc]; simp [Bab.Spec.WhiteSpace], by simp, ht.1, ht.2⟩
  rw [hs]
  unfold syntaxError
  dsimp only
  rw [he, hclean, text_wrap, if_neg h0]
  unfold formatLocation
  dsimp only
  rw [if_pos hn, if_neg (by simp)]
  rfl

/-- **C75** A message without a line is shown behind the file. -/
theorem C75_no_line (x : ReadTexts) {msg : Str} (h0 : msg ≠ []) (hm : NoMention msg) (ht : Neat msg) (hu : ¬ "unmarshal errors:\n  ".toList <+: msg) :
    (syntaxError x ("yaml: ".toList ++ msg)).text = relativePath x.cwd x.path ++ ": ".toList ++ msg := by
  have hy : ∀ p : Str, (∀ t ∈ p.tails, t ≠ [] → t.head? ≠ some 'l' ∨ (t.length ≥ 2 ∧ t[1]? ≠ some 'i')) → NoMention (p ++ msg) := by
    intro p
    induction p with
    | nil => intro _; exact hm
    | cons d p ih =>
      intro h a c r hr
      cases a with
      | nil =>
        have h' := h (d :: p) (by rw [List.mem_tails]) (by simp)
        rcases h' with h' | ⟨h1, h2⟩
        · have hd : d = 'l' := (List.cons.inj hr).1
          exact absurd hd (by simpa using h')
        · match p, h1, h2 with
          | e :: p', _, h2 =>
            have hd : e = 'i' := (List.cons.inj (List.cons.inj hr).2).1
            exact absurd hd (by simpa using h2)
      | cons e a =>
        refine ih (fun t ht => h t ?_) a c r (List.cons.inj hr).2
        rw [List.mem_tails] at ht ⊢
        exact ht.trans (List.suffix_cons _ _)
  have he : extractYAMLLocation ("yaml: ".toList ++ msg) = 0 := by
    unfold extractYAMLLocation
    rw [firstLine_none (hy "yaml: ".toList (by decide))]
    rfl
  have hclean : cleanYAMLError ("yaml: ".toList ++ msg) = msg := by
    unfold cleanYAMLError
    dsimp only
    have : trimPrefix "unmarshal errors:\n  ".toList (trimPrefix "yaml: ".toList ("yaml: ".toList ++ msg)) = msg := by
      rw [trimPrefix_append]
      unfold trimPrefix
      rw [if_neg (fun h => hu (List.isPrefixOf_iff_prefix.mp h))]
    rw [this, removeLines_none hm]
    exact trimSpace_eq ⟨[], [], by simp, by simp, by simp, ht.1, ht.2⟩
  unfold syntaxError
  dsimp only
  rw [he, hclean, text_wrap, if_neg h0]
  unfold formatLocation
  dsimp only
  rw [if_neg (by omega)]
  rfl

/-- **C75** Whatever the YAML library says, a reason is shown, and nothing is made up: it is what the library says, with parts
left out. -/
theorem C75_reason (x : ReadTexts) {msg : Str} (h : msg ≠ []) :
    ∃ place reason, (syntaxError x msg).text = place ++ ": ".toList ++ reason ∧ reason ≠ [] ∧ List.Sublist reason msg ∧
      relativePath x.cwd x.path <+: place := by
  unfold syntaxError
  dsimp only
  rw [text_wrap, text_plain]
  refine ⟨_, _, rfl, ?_, ?_, ?_⟩
  · split
    · exact h
    · next h' => exact h'
  · split
    · exact List.Sublist.refl _
    · unfold cleanYAMLError
      dsimp only
      exact (trimSpace_sublist _).trans ((removeLines_sublist _ _).trans ((trimPrefix_sublist _ _).trans (trimPrefix_sublist _ _)))
  · unfold formatLocation
    dsimp only
    split
    · split
      · exact ⟨_, (List.append_assoc _ _ _).symm⟩
      · exact ⟨_, rfl⟩
    · exact List.prefix_rfl

/-- **C75** What bab prints, from the contents of the files: if loading fails because YAML cannot read a file, the way to the
file stands before the message about it. -/
theorem C75_load (x : LoadTexts) (d : Decoders) (src : GoMap (Except Str (Option Node))) {o : Orders} (ho : Bab.Spec.OrdersOK o) {p : Str} {e : PErr}
    (h : load (filesOf x d src) o p = .error e) :
    ∃ trail q leaf, Bab.Spec.Way (filesOf x d src) p trail q ∧ trail.Nodup ∧ Bab.Spec.LoadFault (filesOf x d src) trail q leaf ∧
      (leaf = .invalid q → ∀ msg, src.get? q = some (.error msg) → exitStatus (some (e.toGo (withSources x d src))) =
        (1, [Bab.Spec.trailText x trail ++ (syntaxError { isPrint := x.isPrint, cwd := x.cwd, path := q } msg).text])) := by
  obtain ⟨trail, q, leaf, h1, h2, h3, -, h5⟩ := C72_message (files_of_wf x d src) ho (withSources x d src) h
  refine ⟨trail, q, leaf, h1, h2, h3, fun hl msg hmsg => ?_⟩
  have hinv : (withSources x d src).invalid q = syntaxError { isPrint := x.isPrint, cwd := x.cwd, path := q } msg := by
    show (match (src.get? q).map (readFile { isPrint := x.isPrint, cwd := x.cwd, path := q } d) with | some (.error g) => g | _ => .plain []) = _
    rw [hmsg]
    rfl
  have hne : (syntaxError { isPrint := x.isPrint, cwd := x.cwd, path := q } msg).text ≠ [] := by
    unfold syntaxError
    dsimp only
    rw [text_wrap]
    simp
  have := h5 hl (by rw [hinv]; rfl) (by rw [hinv]; exact hne)
  rw [hinv] at this
  exact this

/-! ## examples -/

open Bab.Yaml.Sample

example : "yaml: line ".toList ∈ beginnings ∧ "did not find expected key".toList ≠ [] ∧ Neat "did not find expected key".toList := by
  refine ⟨by decide, by decide, ?_, ?_⟩
  · intro c hc
    have : c = 'd' := (Option.some.inj hc).symm
    subst this; unfold Bab.Spec.WhiteSpace; decide
  · intro c hc
    have : c = 'y' := by simpa using hc.symm
    subst this; unfold Bab.Spec.WhiteSpace; decide

/-- a text that does not mention a line -/
theorem Sample.no_mention : NoMention "did not find expected key".toList := by
  intro a c b h
  have : ∀ t ∈ "did not find expected key".toList.tails, "line ".toList.isPrefixOf t = false := by decide
  have := this ("line ".toList ++ c :: b) (by rw [List.mem_tails, h, List.append_assoc]; exact List.suffix_append _ _)
  rw [List.isPrefixOf_iff_prefix.mpr (List.prefix_append _ _)] at this
  cases this

example : (syntaxError here "yaml: line 3: did not find expected key".toList).text = "Babfile.yml:3: did not find expected key".toList := by decide +kernel
example : (syntaxError here "yaml: unknown anchor 'x' referenced".toList).text = "Babfile.yml: unknown anchor 'x' referenced".toList := by decide +kernel
/-- if nothing is left, all of it is shown -/
example : (syntaxError here "yaml: line 3:".toList).text = "Babfile.yml:3: yaml: line 3:".toList := by decide +kernel

/-- Without `NoMention` the claim fails: another line that is mentioned is cut out of the message. -/
theorem C75_mention_is_cut : (syntaxError here "yaml: line 3: mapping key \"a\" already defined at line 1".toList).text =
    "Babfile.yml:3: mapping key \"a\" already defined at".toList := by decide +kernel

end Bab.Yaml
