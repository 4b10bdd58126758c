import Verif.Proof.Message
import Verif.Props.Main
import Verif.Proof.Sample
/-
C70: the message of a failing invocation tells the way from the task that was called to the cause, and can be read in one
way only.
-/

namespace Bab
open Spec

section
variable {c : Cfg} {tasks : TaskMap} {gvars : GoMap Str} {main : Str} {s : State}

/-- **C70** If an invocation fails, the error that it returns tells, from the task that was called down to the cause, which
task, which dependency, which item and which command failed: each place it names is one of the definitions and the event that
it speaks of has happened there. -/
theorem C70_way (h : Reach (start c tasks gvars main) s) {e : Err} (he : s.prog = .ret (some e)) : TaskFails c tasks s.sh.trace main e := by
  have h1 := (Msg.reach h).1
  rw [he] at h1
  exact h1 e rfl

/-- **C70** The same holds for every failure of a task, a dependency or an item on the way. -/
theorem C70_reports (h : Reach (start c tasks gvars main) s) {a b : List Ev} {v : Ev} (hv : s.sh.trace = a ++ v :: b) : Right c tasks a v :=
  (Msg.reach h).2 a v b hv

/-- an invocation of `all` in which the command `y` inside of the block fails -/
example : ∃ e, Sample.bad.prog = .ret (some e) ∧ TaskFails {} Sample.build Sample.bad.sh.trace (Sample.s "all") e ∧
    places e = [.item (Sample.s "y"), .command (Sample.s "all") (Sample.s "y")] := by
  have h : Exec.result Sample.bad = some (some (.wrap (.item (Sample.s "y")) (.wrap (.command (Sample.s "all") (Sample.s "y")) (.exit 127)))) := by
    decide +kernel
  refine ⟨.wrap (.item (Sample.s "y")) (.wrap (.command (Sample.s "all") (Sample.s "y")) (.exit 127)), ?_, ?_, rfl⟩
  · unfold Exec.result at h
    split at h
    · rename_i r hr
      rw [hr]; injection h with h; rw [h]
    · cases h
  · refine C70_way Sample.bad_reach ?_
    unfold Exec.result at h
    split at h
    · rename_i r hr
      rw [hr]; injection h with h; rw [h]
    · cases h

example : ∃ a b, Sample.bad.sh.trace = a ++ .itemEnd (Sample.s "all") 1
    (some (.wrap (.item (Sample.s "y")) (.wrap (.command (Sample.s "all") (Sample.s "y")) (.exit 127)))) :: b :=
  List.mem_iff_append.mp (by decide +kernel)

end

/-! ### the text -/

theorem message_wrap (x : Texts) (w : Where) (e : Err) : (Err.wrap w e).message x = w.text x ++ e.message x := rfl

theorem text_wrap (m : Str) (e : GoErr) : (GoErr.wrap m e).text = m ++ e.text := rfl

theorem toGo_wrap (x : Texts) (w : Where) (e : Err) : (Err.wrap w e).toGo x = .wrap (w.text x) (e.toGo x) := rfl

theorem message_eq (x : Texts) (e : Err) : e.message x = (places e).flatMap (Where.text x) ++ (cause e).leafText x := by
  induction e with
  | wrap w e ih => simp only [message_wrap, places, cause, List.flatMap_cons, ih, List.append_assoc]
  | _ => rfl

theorem toGo_text (x : Texts) (e : Err) : (e.toGo x).text = e.message x := by
  induction e with
  | wrap w e ih => rw [toGo_wrap, text_wrap, message_wrap, ih]
  | _ => rfl

theorem toGo_asMany (x : Texts) (e : Err) : (e.toGo x).asMany = none := by
  induction e with
  | wrap w e ih => rw [toGo_wrap]; exact ih
  | _ => rfl

theorem text_condition (x : Texts) : Where.text x (.condition) =
    "evaluating condition: ".toList := rfl

theorem text_taskCond (x : Texts) (t : Str) : Where.text x (.taskCond t) =
    "task ".toList ++ quote x.isPrint t ++ ": evaluating when condition: ".toList := rfl

theorem text_dep (x : Texts) (d : Str) : Where.text x (.dep d) =
    "dependency ".toList ++ quote x.isPrint d ++ " failed: ".toList := rfl

theorem text_cancelled (x : Texts) : Where.text x (.cancelled) =
    "cancelled: ".toList := rfl

theorem text_prompt (x : Texts) (t : Str) (p : Str) : Where.text x (.prompt t p) =
    "task ".toList ++ quote x.isPrint t ++ ": prompt ".toList ++ quote x.isPrint p ++ ": ".toList := rfl

theorem text_dirOf (x : Texts) (t : Str) (s : Str) : Where.text x (.dirOf t s) =
    "task ".toList ++ quote x.isPrint t ++ ": resolving dir for ".toList ++ quote x.isPrint s ++ ": ".toList := rfl

theorem text_command (x : Texts) (t : Str) (s : Str) : Where.text x (.command t s) =
    "task ".toList ++ quote x.isPrint t ++ ": command ".toList ++ quote x.isPrint s ++ " failed: ".toList := rfl

theorem text_itemCond (x : Texts) (t : Str) (i : Nat) : Where.text x (.itemCond t i) =
    "task ".toList ++ quote x.isPrint t ++ ": run[".toList ++ (Nat.toDigits 10 i) ++ "]: evaluating when condition: ".toList := rfl

theorem text_dirText (x : Texts) : Where.text x (.dirText) =
    "interpolating dir: ".toList := rfl

theorem text_item (x : Texts) (l : Str) : Where.text x (.item l) =
    "parallel item ".toList ++ quote x.isPrint l ++ " failed: ".toList := rfl

theorem text_view (x : Texts) : Where.text x (.view) =
    "failed to start parallel TUI: ".toList := rfl

theorem text_preDep (x : Texts) (d : Str) : Where.text x (.preDep d) =
    "parallel pre-dependency ".toList ++ quote x.isPrint d ++ " failed: ".toList := rfl

/-- in front of the text of a failure about a variable: the file, and the line if there is one -/
theorem text_place (x : Texts) (hx : x.path ≠ []) (l : Nat) : Where.text x (.place l) =
    relativePath x.cwd x.path ++ ((if l = 0 then [] else ':' :: Nat.toDigits 10 l) ++ ": ".toList) := by
  show (if x.path = [] then [] else formatLocation x.cwd { path := x.path, line := l } ++ ": ".toList) = _
  rw [if_neg hx]
  unfold formatLocation
  by_cases h : l = 0
  · subst h; simp
  · simp only [gt_iff_lt, Nat.pos_iff_ne_zero, h, ne_eq, not_false_eq_true, if_true, if_false, not_true_eq_false, List.append_assoc, Nat.repr, String.toList_ofList]

theorem where_ne_nil (x : Texts) (hx : x.path ≠ []) (w : Where) : w.text x ≠ [] := by
  intro h
  have := congrArg List.length h
  cases w <;> simp [text_condition, text_taskCond, text_dep, text_cancelled, text_prompt, text_dirOf, text_command, text_itemCond, text_dirText, text_item, text_view, text_preDep, text_place _ hx] at this

/-- **C70** The message that bab prints for a failed invocation consists of the texts of the places, in their order, and the
text of the cause; nothing is printed for an interruption. -/
theorem C70_printed (x : Texts) (hx : x.path ≠ []) (e : Err) (hne : places e ≠ [] ∨ (cause e).leafText x ≠ []) :
    exitStatus (some (e.toGo x)) =
      if cause e = .canceled then (0, []) else (1, [(places e).flatMap (Where.text x) ++ (cause e).leafText x]) := by
  rw [exitStatus]
  by_cases hc : cause e = .canceled
  · rw [if_pos ((isCanceled_iff _).mpr ((toGo_wraps x e).mpr hc)), if_pos hc]
  · rw [if_neg (fun hh => hc ((toGo_wraps x e).mp ((isCanceled_iff _).mp hh))), if_neg hc, handleError, toGo_asMany]
    simp only
    rw [toGo_text, message_eq]
    rw [if_pos]
    intro h0
    rw [List.append_eq_nil_iff] at h0
    rcases hne with hne | hne
    · cases hp : places e with
      | nil => exact hne hp
      | cons w l =>
        rw [hp] at h0
        rw [List.flatMap_cons, List.append_eq_nil_iff] at h0
        exact where_ne_nil x hx w h0.1.1
    · exact hne h0.2

/-! ### reading the text -/

theorem hexFixed_length (w n : Nat) : (hexFixed w n).length = w := by
  induction w generalizing n with
  | zero => rfl
  | succ w ih => simp [hexFixed, ih]

theorem hexDigit_inj : ∀ {a b : Nat}, a < 16 → b < 16 → hexDigit a = hexDigit b → a = b := by
  have : ∀ a b : Fin 16, hexDigit a = hexDigit b → a = b := by decide
  intro a b ha hb h
  exact congrArg Fin.val (this ⟨a, ha⟩ ⟨b, hb⟩ h)

theorem hexFixed_inj {w m n : Nat} (h : hexFixed w m = hexFixed w n) : m % 16 ^ w = n % 16 ^ w := by
  induction w generalizing m n with
  | zero => simp [Nat.mod_one]
  | succ w ih =>
    rw [hexFixed, hexFixed] at h
    obtain ⟨h1, h2⟩ := List.append_inj h (by rw [hexFixed_length, hexFixed_length])
    have h1 := ih h1
    have h2 := hexDigit_inj (Nat.mod_lt _ (by omega)) (Nat.mod_lt _ (by omega)) (List.cons.inj h2).1
    rw [Nat.pow_succ, Nat.mul_comm, Nat.mod_mul, Nat.mod_mul, h1, h2]

theorem hexFixed_code {w : Nat} {a b : Char} (ha : a.toNat < 16 ^ w) (hb : b.toNat < 16 ^ w) {u v : Str}
    (h : hexFixed w a.toNat ++ u = hexFixed w b.toNat ++ v) : a = b ∧ u = v := by
  obtain ⟨h1, h2⟩ := List.append_inj h (by rw [hexFixed_length, hexFixed_length])
  have h1 := hexFixed_inj h1
  rw [Nat.mod_eq_of_lt ha, Nat.mod_eq_of_lt hb] at h1
  exact ⟨Char.toNat_inj.mp h1, h2⟩

/-- how one code point is written -/
inductive Code (p : Char → Bool) : Char → Str → Prop
  | esc {a : Char} (h : a = '"' ∨ a = '\\') : Code p a ['\\', a]
  | self {a : Char} (h : a ≠ '"') (h' : a ≠ '\\') : Code p a [a]
  | named {a : Char} {n : Nat} {l : Char} (h : a.toNat = n) (hl : (n, l) ∈ [(7, 'a'), (8, 'b'), (12, 'f'), (10, 'n'), (13, 'r'), (9, 't'), (11, 'v')]) :
      Code p a ['\\', l]
  | hex {a : Char} {w : Nat} {l : Char} (h : a.toNat < 16 ^ w) (hl : (w, l) ∈ [(2, 'x'), (4, 'u'), (8, 'U')]) :
      Code p a ('\\' :: l :: hexFixed w a.toNat)

theorem code (p : Char → Bool) (a : Char) : Code p a (quoteChar p a) := by
  unfold quoteChar
  split
  · rename_i h; exact .esc h
  rename_i h
  have h := not_or.mp h
  split
  · exact .self h.1 h.2
  split
  · rename_i h; exact .named h (by decide)
  split
  · rename_i h; exact .named h (by decide)
  split
  · rename_i h; exact .named h (by decide)
  split
  · rename_i h; exact .named h (by decide)
  split
  · rename_i h; exact .named h (by decide)
  split
  · rename_i h; exact .named h (by decide)
  split
  · rename_i h; exact .named h (by decide)
  split
  · rename_i h; exact .hex (by omega) (by decide)
  split
  · rename_i h; exact .hex (by omega) (by decide)
  · have : a.toNat < 1114112 := by
      have := a.valid
      simp only [UInt32.isValidChar, Nat.isValidChar] at this
      unfold Char.toNat
      omega
    exact .hex (w := 8) (by omega) (by decide)

theorem code_inj {p : Char → Bool} {a b : Char} {s t u v : Str} (ha : Code p a s) (hb : Code p b t) (h : s ++ u = t ++ v) : a = b ∧ u = v := by
  have named : ∀ {n l}, (n, l) ∈ [(7, 'a'), (8, 'b'), (12, 'f'), (10, 'n'), (13, 'r'), (9, 't'), (11, 'v')] → l ≠ '"' ∧ l ≠ '\\' ∧
      ∀ m, (m, l) ∈ [(7, 'a'), (8, 'b'), (12, 'f'), (10, 'n'), (13, 'r'), (9, 't'), (11, 'v')] → m = n := by
    intro n l h
    simp only [List.mem_cons, Prod.mk.injEq, List.not_mem_nil, or_false] at h
    rcases h with ⟨rfl, rfl⟩ | ⟨rfl, rfl⟩ | ⟨rfl, rfl⟩ | ⟨rfl, rfl⟩ | ⟨rfl, rfl⟩ | ⟨rfl, rfl⟩ | ⟨rfl, rfl⟩ <;> simp
  have hexed : ∀ {n l}, (n, l) ∈ [(2, 'x'), (4, 'u'), (8, 'U')] → l ≠ '"' ∧ l ≠ '\\' ∧
      (∀ m, (m, l) ∈ [(2, 'x'), (4, 'u'), (8, 'U')] → m = n) ∧
      ∀ m, (m, l) ∉ [(7, 'a'), (8, 'b'), (12, 'f'), (10, 'n'), (13, 'r'), (9, 't'), (11, 'v')] := by
    intro n l h
    simp only [List.mem_cons, Prod.mk.injEq, List.not_mem_nil, or_false] at h
    rcases h with ⟨rfl, rfl⟩ | ⟨rfl, rfl⟩ | ⟨rfl, rfl⟩ <;> simp
  cases ha with
  | esc ha =>
    cases hb with
    | esc hb => simpa using h
    | self hb hb' => exact absurd (List.cons.inj h).1.symm hb'
    | named hb hl =>
      have hh := (List.cons.inj (List.cons.inj h).2).1
      rcases ha with rfl | rfl
      · exact absurd hh.symm (named hl).1
      · exact absurd hh.symm (named hl).2.1
    | hex hb hl =>
      have hh := (List.cons.inj (List.cons.inj h).2).1
      rcases ha with rfl | rfl
      · exact absurd hh.symm (hexed hl).1
      · exact absurd hh.symm (hexed hl).2.1
  | self ha ha' =>
    cases hb with
    | esc hb => exact absurd (List.cons.inj h).1 ha'
    | self hb hb' => simpa using h
    | named hb hl => exact absurd (List.cons.inj h).1 ha'
    | hex hb hl => exact absurd (List.cons.inj h).1 ha'
  | named ha hla =>
    cases hb with
    | esc hb =>
      have hh := (List.cons.inj (List.cons.inj h).2).1
      rcases hb with rfl | rfl
      · exact absurd hh (named hla).1
      · exact absurd hh (named hla).2.1
    | self hb hb' => exact absurd (List.cons.inj h).1.symm hb'
    | named hb hl =>
      obtain ⟨rfl, rfl⟩ := List.cons.inj (List.cons.inj h).2
      exact ⟨Char.toNat_inj.mp (ha.trans (((named hl).2.2 _ hla).trans hb.symm)), rfl⟩
    | hex hb hl =>
      obtain ⟨rfl, -⟩ := List.cons.inj (List.cons.inj h).2
      exact absurd hla ((hexed hl).2.2.2 _)
  | hex ha hla =>
    cases hb with
    | esc hb =>
      have hh := (List.cons.inj (List.cons.inj h).2).1
      rcases hb with rfl | rfl
      · exact absurd hh (hexed hla).1
      · exact absurd hh (hexed hla).2.1
    | self hb hb' => exact absurd (List.cons.inj h).1.symm hb'
    | named hb hl =>
      obtain ⟨rfl, -⟩ := List.cons.inj (List.cons.inj h).2
      exact absurd hl ((hexed hla).2.2.2 _)
    | hex hb hl =>
      obtain ⟨rfl, h2⟩ := List.cons.inj (List.cons.inj h).2
      obtain rfl := (hexed hl).2.2.1 _ hla
      exact hexFixed_code ha hb h2

theorem code_noQuote {p : Char → Bool} {a : Char} {s u v : Str} (ha : Code p a s) : s ++ u ≠ '"' :: v := by
  cases ha <;> simp_all

/-- **C70** A quoted name ends where it seems to end: whatever the name, no other name gives the same text, and what follows
it is not taken for a part of it. -/
theorem C70_quote {p : Char → Bool} {a b u v : Str} (h : quote p a ++ u = quote p b ++ v) : a = b ∧ u = v := by
  unfold quote at h
  simp only [List.cons_append, List.append_assoc, List.nil_append, List.cons.injEq, true_and] at h
  induction a generalizing b with
  | nil =>
    cases b with
    | nil => simpa using h
    | cons y b => 
      rw [List.flatMap_cons, List.append_assoc] at h
      exact absurd h.symm (code_noQuote (code p y))
  | cons x a ih =>
    cases b with
    | nil =>
      rw [List.flatMap_cons, List.append_assoc] at h
      exact absurd h (code_noQuote (code p x))
    | cons y b =>
      rw [List.flatMap_cons, List.flatMap_cons, List.append_assoc, List.append_assoc] at h
      obtain ⟨rfl, h1⟩ := code_inj (code p x) (code p y) h
      obtain ⟨rfl, h2⟩ := ih h1
      exact ⟨rfl, h2⟩

theorem append_colon {c : Char} {u v : Str} : ∀ {a b : Str}, c ∉ a → c ∉ b → a ++ c :: u = b ++ c :: v → a = b ∧ u = v := by
  intro a
  induction a with
  | nil =>
    intro b _ hb h
    cases b with
    | nil => exact ⟨rfl, (List.cons.inj h).2⟩
    | cons y b => exact absurd (List.cons.inj h).1 (fun hh => hb (hh ▸ List.mem_cons_self))
  | cons x a ih =>
    intro b ha hb h
    cases b with
    | nil => exact absurd (List.cons.inj h).1 (fun hh => ha (hh ▸ List.mem_cons_self))
    | cons y b =>
      obtain ⟨h1, h2⟩ := List.cons.inj h
      obtain ⟨rfl, h3⟩ := ih (fun hm => ha (List.mem_cons_of_mem _ hm)) (fun hm => hb (List.mem_cons_of_mem _ hm)) h2
      exact ⟨by rw [h1], h3⟩

theorem digits_inj {i j : Nat} {u v : Str} (h : Nat.toDigits 10 i ++ ']' :: u = Nat.toDigits 10 j ++ ']' :: v) : i = j ∧ u = v := by
  have hno : ∀ n : Nat, ']' ∉ Nat.toDigits 10 n := fun n hm => by
    have := Nat.isDigit_of_mem_toDigits (b := 10) (by omega) (by omega) hm
    exact absurd this (by decide)
  obtain ⟨h1, h2⟩ := append_colon (hno i) (hno j) h
  refine ⟨?_, h2⟩
  have := congrArg (fun l => Nat.ofDigitChars 10 l 0) h1
  simpa [Nat.ofDigitChars_toDigits] using this

/-- nothing else can be taken for a place: neither the texts that come from elsewhere, nor the path of the Babfile for one of
the other texts -/
structure Clear (x : Texts) : Prop where
  path : x.path ≠ []
  other : ∀ e w u, x.other e ≠ Where.text x w ++ u
  place : ∀ l w u v, (∀ k, w ≠ .place k) → Where.text x (.place l) ++ u ≠ Where.text x w ++ v
  cause : ∀ e l u, Err.leafText x e ≠ Where.text x (.place l) ++ u

theorem digits_inj' {i j : Nat} {u v : Str} (h : Nat.toDigits 10 i ++ ':' :: u = Nat.toDigits 10 j ++ ':' :: v) : i = j ∧ u = v := by
  have hno : ∀ n : Nat, ':' ∉ Nat.toDigits 10 n := fun n hm => by
    have := Nat.isDigit_of_mem_toDigits (b := 10) (by omega) (by omega) hm
    exact absurd this (by decide)
  have h1 := append_colon (hno i) (hno j) h
  refine ⟨?_, h1.2⟩
  have := congrArg (fun l => Nat.ofDigitChars 10 l 0) h1.1
  simpa [Nat.ofDigitChars_toDigits] using this

theorem place_inj {x : Texts} (hx : x.path ≠ []) {k l : Nat} {u v : Str} (h : Where.text x (.place k) ++ u = Where.text x (.place l) ++ v) :
    k = l ∧ u = v := by
  simp only [text_place x hx, List.append_assoc] at h
  replace h := List.append_cancel_left h
  have hd : ∀ n : Nat, ∀ t y : Str, Nat.toDigits 10 n ++ t ≠ ' ' :: y := by
    intro n t y h0
    cases hc : Nat.toDigits 10 n with
    | nil => exact absurd hc Nat.toDigits_ne_nil
    | cons a r =>
      rw [hc] at h0
      have ha : a = ' ' := (List.cons.inj h0).1
      have := Nat.isDigit_of_mem_toDigits (b := 10) (n := n) (c := a) (by omega) (by omega) (by rw [hc]; simp)
      rw [ha] at this
      exact absurd this (by decide)
  by_cases hk : k = 0
  · by_cases hl : l = 0
    · subst hk hl; simpa using h
    · subst hk
      simp only [if_true, hl, if_false, List.nil_append, List.cons_append] at h
      exact absurd (List.cons.inj h).2.symm (hd _ _ _)
  · by_cases hl : l = 0
    · subst hl
      simp only [if_true, hk, if_false, List.nil_append, List.cons_append] at h
      exact absurd (List.cons.inj h).2 (hd _ _ _)
    · simp only [hk, hl, if_false, List.cons_append] at h
      obtain ⟨h1, h2⟩ := digits_inj' (List.cons.inj h).2
      exact ⟨h1, (List.cons.inj h2).2⟩

/-- the text of a place is not the beginning of the text of another one -/
theorem where_inj {x : Texts} (hx : Clear x) {w w' : Where} {u v : Str} (h : w.text x ++ u = w'.text x ++ v) : w = w' ∧ u = v := by
  have quoted : ∀ {p q a b y z : Str}, p = q → p ++ (quote x.isPrint a ++ y) = q ++ (quote x.isPrint b ++ z) → a = b ∧ y = z := by
    rintro p _ a b y z rfl h
    exact C70_quote (List.append_cancel_left h)
  by_cases hw : ∃ k, w = .place k
  · obtain ⟨k, rfl⟩ := hw
    by_cases hw' : ∃ k, w' = .place k
    · obtain ⟨l, rfl⟩ := hw'
      obtain ⟨rfl, h2⟩ := place_inj hx.path h
      exact ⟨rfl, h2⟩
    · exact absurd h (hx.place _ _ _ _ fun k hk => hw' ⟨k, hk⟩)
  by_cases hw' : ∃ k, w' = .place k
  · obtain ⟨k, rfl⟩ := hw'
    exact absurd h.symm (hx.place _ _ _ _ fun k hk => hw ⟨k, hk⟩)
  cases w <;> first | exact absurd ⟨_, rfl⟩ hw | skip
  all_goals cases w' <;> first | exact absurd ⟨_, rfl⟩ hw' | skip
  all_goals simp only [text_condition, text_taskCond, text_dep, text_cancelled, text_prompt, text_dirOf, text_command, text_itemCond, text_dirText, text_item, text_view, text_preDep, List.append_assoc] at h
  all_goals first
    | (exfalso; revert h; simp; done)
    | exact ⟨rfl, List.append_cancel_left h⟩
    | (obtain ⟨rfl, h1⟩ := quoted rfl h
       first
        | (exfalso; revert h1; simp; done)
        | exact ⟨rfl, List.append_cancel_left h1⟩
        | (obtain ⟨rfl, h2⟩ := quoted rfl h1
           exact ⟨rfl, List.append_cancel_left h2⟩)
        | (have h2 := List.append_cancel_left h1
           rw [show "]: evaluating when condition: ".toList = ']' :: ": evaluating when condition: ".toList by simp] at h2
           obtain ⟨rfl, h3⟩ := digits_inj h2
           exact ⟨rfl, List.append_cancel_left h3⟩))

theorem leaf_noWhere {x : Texts} (hx : Clear x) {e : Err} {w : Where} {u : Str} :
    e.leafText x ≠ w.text x ++ u := by
  intro h
  have quoted : ∀ {p q a b y z : Str}, p = q → p ++ (quote x.isPrint a ++ y) = q ++ (quote x.isPrint b ++ z) → y = z := by
    rintro p _ a b y z rfl h
    exact (C70_quote (List.append_cancel_left h)).2
  by_cases hw : ∃ k, w = .place k
  · obtain ⟨k, rfl⟩ := hw
    exact hx.cause _ _ _ h
  cases e
  case varNotFound n =>
    obtain ⟨t, ht⟩ : ∃ t, Err.leafText x (.varNotFound n) = 'u' :: t := ⟨_, rfl⟩
    rw [ht] at h
    cases w <;> first | exact absurd ⟨_, rfl⟩ hw | simp [text_condition, text_taskCond, text_dep, text_cancelled, text_prompt, text_dirOf, text_command, text_itemCond, text_dirText, text_item, text_view, text_preDep] at h
  case varCycle n chain =>
    obtain ⟨t, ht⟩ : ∃ t, Err.leafText x (.varCycle n chain) = 'c' :: 'i' :: t := ⟨_, rfl⟩
    rw [ht] at h
    cases w <;> first | exact absurd ⟨_, rfl⟩ hw | simp [text_condition, text_taskCond, text_dep, text_cancelled, text_prompt, text_dirOf, text_command, text_itemCond, text_dirText, text_item, text_view, text_preDep] at h
  case circularDep chain =>
    replace h : "circular dependency: ".toList ++ joinArrow chain = _ := h
    cases w <;> first | exact absurd ⟨_, rfl⟩ hw | (simp only [text_condition, text_taskCond, text_dep, text_cancelled, text_prompt, text_dirOf, text_command, text_itemCond, text_dirText, text_item, text_view, text_preDep, List.append_assoc] at h; revert h; simp)
  case canceled =>
    replace h : "context canceled".toList = _ := h
    cases w <;> first | exact absurd ⟨_, rfl⟩ hw | (simp only [text_condition, text_taskCond, text_dep, text_cancelled, text_prompt, text_dirOf, text_command, text_itemCond, text_dirText, text_item, text_view, text_preDep, List.append_assoc] at h; revert h; simp)
  case parallelUnknown t =>
    replace h : "parallel item references unknown task ".toList ++ quote x.isPrint t = _ := h
    cases w <;> first | exact absurd ⟨_, rfl⟩ hw | (simp only [text_condition, text_taskCond, text_dep, text_cancelled, text_prompt, text_dirOf, text_command, text_itemCond, text_dirText, text_item, text_view, text_preDep, List.append_assoc] at h; revert h; simp [quote])
  case noItems t =>
    replace h : "task ".toList ++ quote x.isPrint t ++ " has no run items for platform ".toList ++ quote x.isPrint x.platform = _ := h
    cases w <;> first | exact absurd ⟨_, rfl⟩ hw | skip
    all_goals simp only [text_condition, text_taskCond, text_dep, text_cancelled, text_prompt, text_dirOf, text_command, text_itemCond, text_dirText, text_item, text_view, text_preDep, List.append_assoc] at h
    all_goals first
      | (revert h; simp; done)
      | (have h1 := quoted rfl h; revert h1; simp)
  case emptyCmd t =>
    replace h : "task ".toList ++ quote x.isPrint t ++ " has an empty command".toList = _ := h
    cases w <;> first | exact absurd ⟨_, rfl⟩ hw | skip
    all_goals simp only [text_condition, text_taskCond, text_dep, text_cancelled, text_prompt, text_dirOf, text_command, text_itemCond, text_dirText, text_item, text_view, text_preDep, List.append_assoc] at h
    all_goals first
      | (revert h; simp; done)
      | (have h1 := quoted rfl h; revert h1; simp)
  all_goals exact hx.other _ _ _ h

/-- **C70** The message can be read in one way only: two errors with the same message name the same places in the same order
and have the same text for the cause, whatever characters names and commands consist of. Texts that come from elsewhere
must not look like one of the places (`Clear`). -/
theorem C70_readable {x : Texts} (hx : Clear x) {e e' : Err} (h : e.message x = e'.message x) :
    places e = places e' ∧ (cause e).leafText x = (cause e').leafText x := by
  rw [message_eq, message_eq] at h
  generalize cause e = k at *
  generalize cause e' = k' at *
  generalize places e = l at *
  generalize places e' = l' at *
  induction l generalizing l' with
  | nil =>
    cases l' with
    | nil => exact ⟨rfl, h⟩
    | cons w' l' =>
      rw [List.flatMap_cons, List.append_assoc] at h
      exact absurd h (leaf_noWhere hx)
  | cons w l ih =>
    cases l' with
    | nil =>
      rw [List.flatMap_cons, List.append_assoc] at h
      exact absurd h.symm (leaf_noWhere hx)
    | cons w' l' =>
      rw [List.flatMap_cons, List.flatMap_cons, List.append_assoc, List.append_assoc] at h
      obtain ⟨rfl, h1⟩ := where_inj hx h
      obtain ⟨rfl, h2⟩ := ih l' h1
      exact ⟨rfl, h2⟩

/-- texts that do not look like a place -/
def plainTexts : Texts where
  isPrint := fun x => 32 ≤ x.toNat && x.toNat < 127
  platform := "linux".toList
  path := "/w/Babfile".toList
  cwd := some "/w".toList
  similar := fun _ => []
  other := fun _ => "exit status 1".toList

theorem plain_place (l : Nat) : ∃ u, Where.text plainTexts (.place l) = 'B' :: u := by
  rw [text_place _ (by decide)]
  have : relativePath plainTexts.cwd plainTexts.path = "Babfile".toList := by decide +kernel
  rw [this]
  exact ⟨_, rfl⟩

theorem plain_clear : Clear plainTexts := by
  refine ⟨by decide, ?_, ?_, ?_⟩
  · intro e w u
    show "exit status 1".toList ≠ _
    by_cases hw : ∃ k, w = .place k
    · obtain ⟨k, rfl⟩ := hw
      obtain ⟨y, hy⟩ := plain_place k
      rw [hy]
      simp
    · cases w <;> first | exact absurd ⟨_, rfl⟩ hw | simp [text_condition, text_taskCond, text_dep, text_cancelled, text_prompt, text_dirOf, text_command, text_itemCond, text_dirText,
      text_item, text_view, text_preDep]
  · intro l w u v hw
    obtain ⟨y, hy⟩ := plain_place l
    rw [hy]
    cases w <;> first | exact absurd rfl (hw _) | simp [text_condition, text_taskCond, text_dep, text_cancelled, text_prompt, text_dirOf, text_command, text_itemCond, text_dirText,
      text_item, text_view, text_preDep]
  · intro e l u
    obtain ⟨y, hy⟩ := plain_place l
    rw [hy]
    have key : ∃ c t, Err.leafText plainTexts e = c :: t ∧ c ≠ 'B' := by
      cases e <;> exact ⟨_, _, rfl, by decide⟩
    obtain ⟨c, t, h, hc⟩ := key
    rw [h]
    intro h0
    exact hc (List.cons.inj h0).1

/-- a name with quotes and a line break: it cannot be taken for the end of the name -/
example : (Err.wrap (.dep "a\" failed: b\n".toList) (.wrap (.command "t".toList "x".toList) (.exit 1))).message plainTexts =
    "dependency \"a\\\" failed: b\\n\" failed: task \"t\": command \"x\" failed: exit status 1".toList := by decide +kernel

/-- the hypotheses of `C70_printed`, and what is printed -/
example : exitStatus (some ((Err.wrap (.item "y".toList) (.wrap (.command "all".toList "y".toList) (.exit 1))).toGo plainTexts)) =
    (1, ["parallel item \"y\" failed: task \"all\": command \"y\" failed: exit status 1".toList]) := by
  rw [C70_printed _ (by decide) _ (Or.inl (by simp [places]))]
  rfl

end Bab
