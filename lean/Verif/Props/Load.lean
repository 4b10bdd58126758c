import Verif.Props.Locate
import Verif.Proof.Load
import Verif.Proof.Sort
import Verif.Props.Message
import Verif.Props.Cli
import Mathlib.Data.List.Chain
/-
C72: the messages about loading.
-/

namespace Bab
open Spec Cli

namespace Spec

/-- the files, as they are shown -/
def trailText (x : LoadTexts) (l : List Str) : Str := l.flatMap fun f => relativePath x.cwd f ++ ": ".toList

/-- what is said about the last file -/
def reason (x : LoadTexts) : PErr → Str
  | .notFound p => x.read p
  | .circular _ chain => "circular include: ".toList ++ joinArrow chain
  | .collision _ name => "task name collision: ".toList ++ name
  | _ => []

/-- the same problem with the same names, apart from the task that contains the reference -/
inductive SameNames : VErr → VErr → Prop
  | notFound {n b b'} : SameNames (.notFound n b) (.notFound n b')
  | aliasConflict {a t} : SameNames (.aliasConflict a t) (.aliasConflict a t)
  | aliasTwice {a t o} : SameNames (.aliasTwice a t o) (.aliasTwice a t o)

end Spec

section
variable (x : LoadTexts) (p : Str)
theorem toGo_notFound : (PErr.notFound p).toGo x = .wrap (relativePath x.cwd p ++ ": ".toList) (.plain (x.read p)) := rfl
theorem toGo_circular (c : List Str) : (PErr.circular p c).toGo x = .plain (relativePath x.cwd p ++ ": circular include: ".toList ++ joinArrow c) := rfl
theorem toGo_collision (n : Str) : (PErr.collision p n).toGo x = .plain (relativePath x.cwd p ++ ": task name collision: ".toList ++ n) := rfl
theorem toGo_pathEmpty : PErr.pathEmpty.toGo x = .wrap (relativePath x.cwd x.arg ++ ": ".toList) (.plain "path cannot be empty".toList) := rfl
theorem toGo_validation (l : List PlacedErr) : (PErr.validation l).toGo x = .many (l.map fun e => .plain (e.text x)) := rfl
theorem reason_notFound : reason x (.notFound p) = x.read p := rfl
theorem reason_circular (c : List Str) : reason x (.circular p c) = "circular include: ".toList ++ joinArrow c := rfl
theorem reason_collision (n : Str) : reason x (.collision p n) = "task name collision: ".toList ++ n := rfl
theorem text_plain (m : Str) : (GoErr.plain m).text = m := rfl
theorem trailText_one : trailText x [p] = relativePath x.cwd p ++ ": ".toList := by simp [trailText]
end

theorem leaf_text (x : LoadTexts) {files : Files} {trail : List Str} {q : Str} {leaf : PErr} (h : LoadFault files trail q leaf) (hl : leaf ≠ .invalid q) :
    (leaf.toGo x).asMany = none ∧ (leaf.toGo x).isCanceled = false ∧ (leaf.toGo x).text = trailText x [q] ++ reason x leaf := by
  have e1 : ": circular include: ".toList = ": ".toList ++ "circular include: ".toList := rfl
  have e2 : ": task name collision: ".toList = ": ".toList ++ "task name collision: ".toList := rfl
  rw [trailText_one]
  cases h with
  | missing =>
    rw [toGo_notFound, reason_notFound]
    exact ⟨by rw [GoErr.asMany, GoErr.asMany], by rw [GoErr.isCanceled, GoErr.isCanceled], by rw [text_wrap, text_plain]⟩
  | invalid => exact absurd rfl hl
  | circle =>
    rw [toGo_circular, reason_circular, e1]
    exact ⟨by rw [GoErr.asMany], by rw [GoErr.isCanceled], by rw [text_plain]; simp only [List.append_assoc]⟩
  | collision =>
    rw [toGo_collision, reason_collision, e2]
    exact ⟨by rw [GoErr.asMany], by rw [GoErr.isCanceled], by rw [text_plain]; simp only [List.append_assoc]⟩

theorem leaf_root {files : Files} {trail : List Str} {q : Str} {leaf : PErr} (h : LoadFault files trail q leaf) (l : List (Str × Str)) :
    rootCause (Load.around l leaf) = leaf := by
  induction l with
  | nil => cases h <;> rfl
  | cons t l ih => exact ih

section
variable {files : Files} {o : Orders} {p : Str} (hw : FilesWF files) (ho : OrdersOK o)
include hw ho

/-- **C72** If loading fails, the includes lead from the main file to the file at fault, no file is passed twice on the way, and
one message is printed: the files on the way, in this order, the file at fault, and what is wrong with it. If that file is
there but not a Babfile, its own errors are printed. -/
theorem C72_message (x : LoadTexts) {e : PErr} (h : load files o p = .error e) :
    ∃ trail q leaf, Way files p trail q ∧ trail.Nodup ∧ LoadFault files trail q leaf ∧
      (leaf ≠ .invalid q → exitStatus (some (e.toGo x)) = (1, [trailText x (trail ++ [q]) ++ reason x leaf])) ∧
      (leaf = .invalid q → (x.invalid q).isCanceled = false → (x.invalid q).text ≠ [] → exitStatus (some (e.toGo x)) = (1,
        match (x.invalid q).asMany with
        | some es => es.map GoErr.text
        | none => [trailText x trail ++ (x.invalid q).text])) := by
  obtain ⟨trail, q, leaf, rfl, k1, k2, k3, -⟩ := Load.parseFile_way hw ho _ h (C34_terminates hw ho h) List.nodup_nil
  refine ⟨trail.map (·.1), q, leaf, k1, by simpa using k2, by simpa using k3, fun hl => ?_, fun hl hc ht => ?_⟩
  · have hne : trailText x (trail.map (·.1) ++ [q]) ++ reason x leaf ≠ [] := by simp [trailText]
    have hleaf := leaf_text x (by simpa using k3) hl
    have ht : ((Load.around trail leaf).toGo x).text = trailText x (trail.map (·.1) ++ [q]) ++ reason x leaf := by
      rw [Load.text_around, hleaf.2.2]
      simp [trailText]
    rw [exitStatus, Load.isCanceled_around, hleaf.2.1, handleError, Load.asMany_around, hleaf.1, ht]
    simp only [Bool.false_eq_true, if_false]
    rw [if_pos hne]
  · subst hl
    rw [exitStatus, Load.isCanceled_around, handleError, Load.asMany_around, Load.text_around]
    show (if (x.invalid q).isCanceled = true then _ else _) = _
    rw [hc]
    simp only [Bool.false_eq_true, if_false]
    have hne : (trail.map (·.1)).flatMap (fun f => relativePath x.cwd f ++ ": ".toList) ++ ((PErr.invalid q).toGo x).text ≠ [] := by
      intro h0
      exact ht (List.append_eq_nil_iff.mp h0).2
    rw [if_pos hne]
    rfl

omit hw ho in
theorem way_chain {trail : List Str} {q : Str} (h : Way files p trail q) : List.IsChain (Next files) (trail ++ [q]) ∧ (trail ++ [q]).head? = some p := by
  induction h with
  | here p => simp
  | @step p q r trail hn hr ih =>
    refine ⟨?_, rfl⟩
    obtain ⟨h1, h2⟩ := ih
    cases hl : trail ++ [r] with
    | nil => simp at hl
    | cons a l =>
      rw [hl] at h1 h2
      simp only [List.head?_cons, Option.some.injEq] at h2
      subst h2
      rw [List.cons_append, hl]
      exact .cons_cons hn h1

omit hw ho in
/-- **C72** Of the files shown, each includes the next one, and the first one is the main file. -/
theorem C72_way {trail : List Str} {q : Str} (h : Way files p trail q) :
    List.IsChain (Next files) (trail ++ [q]) ∧ (trail ++ [q]).head? = some p := way_chain h

omit hw ho in
/-- **C72** For an error about a circle the files shown contain the circle: from the last one back to where it was met before. -/
theorem C72_circle {trail : List Str} {q : Str} (h : Way files p trail q) {chain : List Str} (hf : LoadFault files trail q (.circular q chain)) :
    ∃ a b, trail = a ++ q :: b ∧ List.IsChain (Next files) (q :: b ++ [q]) := by
  cases hf with
  | circle hm _ =>
    obtain ⟨a, b, rfl⟩ := List.append_of_mem hm
    refine ⟨a, b, rfl, ?_⟩
    have := (way_chain h).1
    rw [List.append_assoc] at this
    exact this.right_of_append

/-- **C72** (partial) The names given as the circle are those of the files on the way, and the last one is that of the file that is
met again. The full statement would be that each of the named files includes the next one; the code sorts the names, so that
this does not hold (`Sample.C72_wrong_chain`). -/
theorem C72_chain_partial {e : PErr} (h : load files o p = .error e) {q : Str} {chain : List Str} (he : rootCause e = .circular q chain) :
    ∃ trail, Way files p trail q ∧ q ∈ trail ∧ chain.dropLast.Perm (trail.map basePath) ∧ chain.getLast? = some (basePath q) := by
  obtain ⟨trail, q', leaf, rfl, k1, k2, k3, k4⟩ := Load.parseFile_way hw ho _ h (C34_terminates hw ho h) List.nodup_nil
  have hr := leaf_root k3 trail
  rw [hr] at he
  subst he
  simp only [List.reverse_nil, List.nil_append] at k2 k3 k4
  generalize trail.map (·.1) = l at k1 k2 k3 k4
  cases k3 with
  | circle hm _ =>
    have := k4 chain rfl
    subst this
    refine ⟨l, k1, hm, ?_, by simp [includeChain]⟩
    rw [includeChain, List.dropLast_concat]
    exact (sortBy_perm _ _).trans ((List.reverse_perm _).map _)

omit hw ho in
/-- **C72** `Parse` fails because of a blank path, because loading fails or because of errors of validation, which are printed one
by one. -/
theorem C72_parse {v : Visit} (x : LoadTexts) {cwd path : Str} {e : PErr}
    (h : parse files v.orders v.grow v.v1 v.v2 v.v3 v.v4 cwd path = .error e) :
    (trimSpace path = [] ∧ exitStatus (some (e.toGo x)) = (1, [relativePath x.cwd x.arg ++ ": path cannot be empty".toList])) ∨
    load files v.orders (absolute cwd path) = .error e ∨
    ∃ r errs, load files v.orders (absolute cwd path) = .ok r ∧ e = .validation errs ∧ errs ≠ [] ∧
      errs = validateAt (absolute cwd path) v.grow (v.v1 r.tasks) (v.v2 r.tasks) (v.v3 r.tasks) (v.v4 r.tasks) r.tasks ∧
      exitStatus (some (e.toGo x)) = (1, errs.map (PlacedErr.text x)) := by
  rw [parse_eq] at h
  split at h
  · rename_i ht
    cases h
    refine .inl ⟨ht, ?_⟩
    rw [toGo_pathEmpty, exitStatus, GoErr.isCanceled, GoErr.isCanceled, handleError, GoErr.asMany, GoErr.asMany, text_wrap, text_plain]
    have : ": path cannot be empty".toList = ": ".toList ++ "path cannot be empty".toList := rfl
    rw [this, List.append_assoc]
    simp only [Bool.false_eq_true, if_false]
    rw [if_pos fun h0 => absurd (List.append_eq_nil_iff.mp h0).2 (by decide)]
  · cases hl : load files v.orders (absolute cwd path) with
    | error e' => rw [hl] at h; cases h; exact .inr (.inl rfl)
    | ok r =>
      rw [hl] at h
      dsimp only at h
      cases hx : validateAt (absolute cwd path) v.grow (v.v1 r.tasks) (v.v2 r.tasks) (v.v3 r.tasks) (v.v4 r.tasks) r.tasks with
      | nil => rw [hx] at h; cases h
      | cons a l =>
        rw [hx] at h
        cases h
        refine .inr (.inr ⟨r, a :: l, rfl, rfl, by simp, hx.symm, ?_⟩)
        rw [toGo_validation, exitStatus, handleError, GoErr.asMany]
        have hc : ∀ l : List PlacedErr, (GoErr.many (l.map fun e => .plain (e.text x))).isCanceled = false := by
          intro l
          rw [GoErr.isCanceled]
          induction l with
          | nil => rfl
          | cons a l ih => rw [List.map_cons, GoErr.anyCanceled, GoErr.isCanceled, ih]; rfl
        rw [hc]
        simp only [Bool.false_eq_true, if_false, List.map_map]
        rfl

omit hw ho in
theorem text_notFound (x : LoadTexts) {e : PlacedErr} {n b : Str} (h : e.err = .notFound n b) (hp : e.at_.path ≠ []) (hl : e.at_.line ≠ 0) :
    e.text x = relativePath x.cwd e.at_.path ++ ':' :: (Nat.repr e.at_.line).toList ++ ": ".toList ++ ("task ".toList ++ (quote x.isPrint n ++
      (" not found".toList ++ x.suggestion n))) := by
  have : formatLocation x.cwd { path := e.at_.path, line := e.at_.line } = relativePath x.cwd e.at_.path ++ ':' :: (Nat.repr e.at_.line).toList := by
    unfold formatLocation
    rw [if_pos (Nat.pos_of_ne_zero hl), if_neg (Nat.lt_irrefl 0)]
  unfold PlacedErr.text
  rw [h]
  dsimp only
  rw [if_neg hp, this]
  simp only [List.append_assoc, List.cons_append]

omit hw ho in
theorem text_conflict (x : LoadTexts) {e : PlacedErr} {a t : Str} (h : e.err = .aliasConflict a t) :
    e.text x = relativePath x.cwd e.at_.path ++ ':' :: (Nat.repr e.at_.line).toList ++ ": ".toList ++ ("alias ".toList ++ (quote x.isPrint a ++
      (" for task ".toList ++ (quote x.isPrint t ++ " conflicts with existing task name".toList)))) := by
  have : ": alias ".toList = ": ".toList ++ "alias ".toList := rfl
  unfold PlacedErr.text
  rw [h]
  dsimp only
  rw [this]
  simp only [List.append_assoc, List.cons_append]

omit hw ho in
theorem text_twice (x : LoadTexts) {e : PlacedErr} {a t o : Str} (h : e.err = .aliasTwice a t o) :
    e.text x = relativePath x.cwd e.at_.path ++ ':' :: (Nat.repr e.at_.line).toList ++ ": ".toList ++ ("alias ".toList ++ (quote x.isPrint a ++
      (" for task ".toList ++ (quote x.isPrint t ++ (" already defined by task ".toList ++ (quote x.isPrint o ++
      (" at line ".toList ++ (Nat.repr e.first).toList))))))) := by
  have : ": alias ".toList = ": ".toList ++ "alias ".toList := rfl
  unfold PlacedErr.text
  rw [h]
  dsimp only
  rw [this]
  simp only [List.append_assoc, List.cons_append]

omit hw ho in
/-- **C72** The message of an error of validation tells which names it is about: errors about the same line with the same message
are about the same names. (Cycles are reported without a line; C38 tells what can be wrong with them.) -/
theorem C72_names (x : LoadTexts) {e e' : PlacedErr} (hp : e.at_ = e'.at_) (h : e.text x = e'.text x) (hpath : e.at_.path ≠ [])
    (hl : e.at_.line ≠ 0) (hc : ∀ c, e.err ≠ .cycle c) (hc' : ∀ c, e'.err ≠ .cycle c) : SameNames e.err e'.err := by
  have hpath' := hp ▸ hpath
  have hl' := hp ▸ hl
  have d1 : ∀ u v : Str, "task ".toList ++ u ≠ "alias ".toList ++ v := fun u v h => by cases h
  have d2 : ∀ u v : Str, " conflicts with existing task name".toList ++ u ≠ " already defined by task ".toList ++ v := fun u v h => by cases h
  cases he : e.err with
  | cycle c => exact absurd he (hc c)
  | notFound n b =>
    rw [text_notFound x he hpath hl, hp] at h
    cases he' : e'.err with
    | cycle c => exact absurd he' (hc' c)
    | notFound n' b' =>
      rw [text_notFound x he' hpath' hl', List.append_cancel_left_eq, List.append_cancel_left_eq] at h
      obtain ⟨rfl, -⟩ := C70_quote h
      exact .notFound
    | aliasConflict a t => rw [text_conflict x he', List.append_cancel_left_eq] at h; exact absurd h (d1 _ _)
    | aliasTwice a t o => rw [text_twice x he', List.append_cancel_left_eq] at h; exact absurd h (d1 _ _)
  | aliasConflict a t =>
    rw [text_conflict x he, hp] at h
    cases he' : e'.err with
    | cycle c => exact absurd he' (hc' c)
    | notFound n' b' => rw [text_notFound x he' hpath' hl', List.append_cancel_left_eq] at h; exact absurd h.symm (d1 _ _)
    | aliasConflict a' t' =>
      rw [text_conflict x he', List.append_cancel_left_eq, List.append_cancel_left_eq] at h
      obtain ⟨rfl, h1⟩ := C70_quote h
      obtain ⟨rfl, -⟩ := C70_quote (List.append_cancel_left h1)
      exact .aliasConflict
    | aliasTwice a' t' o =>
      rw [text_twice x he', List.append_cancel_left_eq, List.append_cancel_left_eq] at h
      obtain ⟨rfl, h1⟩ := C70_quote h
      obtain ⟨rfl, h2⟩ := C70_quote (List.append_cancel_left h1)
      exact absurd (by rw [List.append_nil]; exact h2) (d2 [] _)
  | aliasTwice a t o =>
    rw [text_twice x he, hp] at h
    cases he' : e'.err with
    | cycle c => exact absurd he' (hc' c)
    | notFound n' b' => rw [text_notFound x he' hpath' hl', List.append_cancel_left_eq] at h; exact absurd h.symm (d1 _ _)
    | aliasConflict a' t' =>
      rw [text_conflict x he', List.append_cancel_left_eq, List.append_cancel_left_eq] at h
      obtain ⟨rfl, h1⟩ := C70_quote h
      obtain ⟨rfl, h2⟩ := C70_quote (List.append_cancel_left h1)
      exact absurd (by rw [List.append_nil]; exact h2.symm) (d2 [] _)
    | aliasTwice a' t' o' =>
      rw [text_twice x he', List.append_cancel_left_eq, List.append_cancel_left_eq] at h
      obtain ⟨rfl, h1⟩ := C70_quote h
      obtain ⟨rfl, h2⟩ := C70_quote (List.append_cancel_left h1)
      obtain ⟨rfl, -⟩ := C70_quote (List.append_cancel_left h2)
      exact .aliasTwice

end

/-! ### Concrete cases -/

namespace Sample

/-- the main file includes `z.yml`; `z.yml` and `a.yml` include each other -/
def tangle : Files :=
  [ (s "/p/B.yml", some { includes := [(s "z", s "z.yml")] }),
    (s "/p/z.yml", some { includes := [(s "a", s "a.yml")] }),
    (s "/p/a.yml", some { includes := [(s "z", s "z.yml")] }) ]

theorem tangle_wf : FilesWF tangle := files_wf (by decide +kernel)

/-- texts for `/p` as the working directory -/
def texts : LoadTexts where
  isPrint := fun c => decide (32 ≤ c.toNat)
  cwd := some (s "/p")
  arg := []
  read := fun _ => s "no such file"
  invalid := fun _ => .plain (s "bad")
  similar := fun _ => []

/-- what is printed -/
def said (files : Files) (p : Str) : Option (Nat × List Str) :=
  match load files asWritten p with
  | .ok _ => none
  | .error e => some (exitStatus (some (e.toGo texts)))

/-- **C72** The files in front are right, the chain is not: `B.yml` does not include `a.yml`, and `z.yml` does not include itself. -/
theorem C72_wrong_chain :
    said tangle (s "/p/B.yml") = some (1, [s "B.yml: z.yml: a.yml: z.yml: circular include: B.yml → a.yml → z.yml → z.yml"]) ∧
    ¬ ∃ l, l.map basePath = [s "B.yml", s "a.yml", s "z.yml", s "z.yml"] ∧ List.IsChain (Next tangle) l := by
  refine ⟨by decide +kernel, ?_⟩
  rintro ⟨l, hl, hc⟩
  match l, hl, hc with
  | [], hl, _ => cases hl
  | [_], hl, _ => simp at hl
  | a :: b :: l, hl, hc =>
    simp only [List.map_cons, List.cons.injEq] at hl
    obtain ⟨ns, bf, inc, hf, hi, rfl⟩ := (List.isChain_cons_cons.mp hc).1
    have : ∀ q ∈ tangle, ∀ bf ∈ q.2, ∀ i ∈ bf.includes, basePath q.1 = s "B.yml" → basePath (includePath (dirPath q.1) i.2) ≠ s "a.yml" := by
      decide +kernel
    exact this _ (GoMap.mem_of_get? hf) bf rfl _ (GoMap.mem_of_get? hi) hl.1 hl.2.1

/-- a file that is not there, behind two includes -/
def lostFile : Files :=
  [ (s "/p/B.yml", some { includes := [(s "lib", s "lib/l.yml")] }),
    (s "/p/lib/l.yml", some { includes := [(s "x", s "../gone.yml")] }) ]

example : FilesWF lostFile ∧ OrdersOK asWritten ∧ (load lostFile asWritten (s "/p/B.yml")).isOk = false :=
  ⟨files_wf (by decide +kernel), asWritten_ok, by decide +kernel⟩
example : said lostFile (s "/p/B.yml") = some (1, [s "B.yml: lib/l.yml: gone.yml: no such file"]) := by decide +kernel
example : said (lostFile ++ [(s "/p/gone.yml", none)]) (s "/p/B.yml") = some (1, [s "B.yml: lib/l.yml: bad"]) := by decide +kernel

/-- two tasks of the same name behind an include: the task `u:t` of `l.yml` itself and the task `t` of `u.yml` -/
def clashBehind : Files :=
  [ (s "/p/B.yml", some { includes := [(s "lib", s "l.yml")] }),
    (s "/p/l.yml", some { includes := [(s "u", s "u.yml")], tasks := [(s "u:t", { name := [], run := [cmd "1"] })] }),
    (s "/p/u.yml", some { tasks := [(s "t", { name := [], run := [cmd "2"] })] }) ]

example : said clashBehind (s "/p/B.yml") = some (1, [s "B.yml: l.yml: u.yml: task name collision: u:t"]) := by decide +kernel

/-- the circle is met: the hypotheses of `C72_circle` and `C72_chain_partial` -/
example : Way tangle (s "/p/B.yml") [s "/p/B.yml", s "/p/z.yml", s "/p/a.yml"] (s "/p/z.yml") ∧
    LoadFault tangle [s "/p/B.yml", s "/p/z.yml", s "/p/a.yml"] (s "/p/z.yml") (.circular (s "/p/z.yml") []) :=
  ⟨.step ⟨s "z", _, _, rfl, rfl, by decide +kernel⟩ (.step ⟨s "a", _, _, rfl, rfl, by decide +kernel⟩
    (.step ⟨s "z", _, _, rfl, rfl, by decide +kernel⟩ (.here _))), .circle (by decide +kernel) []⟩

/-- what is printed for the errors of validation -/
def saidParse (files : Files) (p : Str) : Option (Nat × List Str) :=
  match parse files asWritten doubling id id id id (s "/p") p with
  | .ok _ => none
  | .error e => some (exitStatus (some (e.toGo { texts with arg := p, similar := fun n => if n = s "gone" then s "one" else [] })))

example : saidParse slips (s "Babfile.yml") = some (1,
    [s "Babfile.yml:5: task \"gone\" not found (did you mean \"one\"?)", s "Babfile.yml:35: task \"web:lost\" not found",
     s "Babfile.yml: circular dependency: all → web:make → web:make",
     s "Babfile.yml:9: alias \"all\" for task \"two\" conflicts with existing task name",
     s "Babfile.yml:12: alias \"x\" for task \"three\" already defined by task \"two\" at line 9"]) := by decide +kernel
example : saidParse slips (s " ") = some (1, [s " : path cannot be empty"]) := by decide +kernel

end Sample

end Bab
