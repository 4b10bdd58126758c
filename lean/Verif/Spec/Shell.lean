import Verif.Spec.Interpolate
/-
How a shell reads the text of a command (POSIX, Shell Command Language, 2.2 and 2.3): every character is part of a word, or separates
words, or is an operator, a quotation mark, the beginning or end of an expansion, or part of a comment. Left out are
here-documents, the special rules inside backquotes and inside `$((`, and reserved words. Nothing here refers to the code.
-/

namespace Bab.Spec.Shell
open Bab

/-- kinds of characters -/
inductive Class
  | name | other | blank | newline | op | squote | dquote | back | dollar | tick | lpar | rpar | lbrace | rbrace | hash
  deriving DecidableEq

/-- characters of names -/
def isName (c : Char) : Bool := c.isAlphanum || c = '_'

/-- the kind of a character -/
def classOf (c : Char) : Class :=
  if isName c then .name
  else match c with
    | ' ' | '\t' => .blank
    | '\n' => .newline
    | ';' | '&' | '|' | '<' | '>' => .op
    | '\'' => .squote
    | '"' => .dquote
    | '\\' => .back
    | '$' => .dollar
    | '`' => .tick
    | '(' => .lpar
    | ')' => .rpar
    | '{' => .lbrace
    | '}' => .rbrace
    | '#' => .hash
    | _ => .other

/-- what a character is in a command -/
inductive Role
  /-- part of a word, standing for itself -/
  | text
  /-- part of the name of a variable that is expanded -/
  | name
  | blank | operator | quote | expansion | comment
  deriving DecidableEq

/-- what is open: `"`, `$(`, `(`, a backquote, `${` -/
inductive Open
  | dq | sub | par | tick | brace
  deriving DecidableEq

/-- what has just been read -/
inductive Mode
  | between | word | single | escaped | dollar | var | braceVar | comment
  deriving DecidableEq

/-- what the shell remembers while it reads -/
structure St where
  stack : List Open
  mode : Mode
  deriving DecidableEq

/-- at the beginning -/
def start : St := ⟨[], .between⟩

/-- a backquote ends an expansion or begins one -/
def tick : List Open → List Open × Mode
  | .tick :: r => (r, .word)
  | s => (.tick :: s, .between)

/-- a closing parenthesis -/
def close : List Open → Role × St
  | .sub :: r => (.expansion, ⟨r, .word⟩)
  | .par :: r => (.operator, ⟨r, .between⟩)
  | s => (.operator, ⟨s, .between⟩)

/-- a character outside of single quotes, that the one before it says nothing about; `b` tells whether a word may begin here -/
def plain (s : List Open) (b : Bool) (k : Class) : Role × St :=
  match s.head?, k with
  | _, .dollar => (.expansion, ⟨s, .dollar⟩)
  | _, .back => (.quote, ⟨s, .escaped⟩)
  | _, .tick => (.expansion, ⟨(tick s).1, (tick s).2⟩)
  | some .dq, .dquote => (.quote, ⟨s.tail, .word⟩)
  | some .dq, _ => (.text, ⟨s, .word⟩)
  | _, .dquote => (.quote, ⟨.dq :: s, .word⟩)
  | _, .squote => (.quote, ⟨s, .single⟩)
  | some .brace, .rbrace => (.expansion, ⟨s.tail, .word⟩)
  | some .brace, _ => (.text, ⟨s, .word⟩)
  | _, .blank => (.blank, ⟨s, .between⟩)
  | _, .newline => (.operator, ⟨s, .between⟩)
  | _, .op => (.operator, ⟨s, .between⟩)
  | _, .lpar => (.operator, ⟨.par :: s, .between⟩)
  | _, .rpar => close s
  | _, .hash => if b then (.comment, ⟨s, .comment⟩) else (.text, ⟨s, .word⟩)
  | _, _ => (.text, ⟨s, .word⟩)

/-- one character -/
def step (st : St) (k : Class) : Role × St :=
  match st.mode, k with
  | .between, k => plain st.stack true k
  | .word, k => plain st.stack false k
  | .single, .squote => (.quote, ⟨st.stack, .word⟩)
  | .single, _ => (.text, st)
  | .escaped, _ => (.text, ⟨st.stack, .word⟩)
  | .comment, .newline => (.operator, ⟨st.stack, .between⟩)
  | .comment, _ => (.comment, st)
  | .dollar, .lpar => (.expansion, ⟨.sub :: st.stack, .between⟩)
  | .dollar, .lbrace => (.expansion, ⟨.brace :: st.stack, .braceVar⟩)
  | .dollar, .name => (.name, ⟨st.stack, .var⟩)
  | .dollar, .hash => (.name, ⟨st.stack, .word⟩)
  | .dollar, .dollar => (.name, ⟨st.stack, .word⟩)
  | .dollar, .other => (.name, ⟨st.stack, .word⟩)
  | .dollar, k => plain st.stack false k
  | .var, .name => (.name, st)
  | .var, k => plain st.stack false k
  | .braceVar, .name => (.name, st)
  | .braceVar, .hash => (.expansion, st)
  | .braceVar, k => plain st.stack false k

/-- a command, as the shell reads it -/
def read : St → Str → List (Char × Role)
  | _, [] => []
  | st, c :: r => (c, (step st (classOf c)).1) :: read (step st (classOf c)).2 r

/-- a character of a command, or a value put in for a reference -/
inductive Sym
  | chr (c : Char)
  | val (v : Str)

/-- the text -/
def fill (l : List Sym) : Str := l.flatMap fun
  | .chr c => [c]
  | .val v => v

/-- a command with the values put in for the references -/
def syms (val : Str → Option Str) (ts : List Tok) : List Sym := ts.flatMap fun
  | .chr c => [.chr c]
  | .esc => [.chr '$', .chr '{', .chr '{']
  | .ref n => [.val ((val n).getD [])]

/-- characters that mean nothing to the shell -/
def Plain (v : Str) : Prop := ∀ c ∈ v, isName c = true ∨ c ∈ ['-', '.', '/', ':', ',', '+', '@', '%']

/-- A value can do no harm where the shell has come to: between single quotes a value without a single quote, between double quotes one
without characters that are special there, elsewhere one that is not empty and has no special characters at all, if it does not
lengthen the name of a variable. -/
def Keeps (st : St) (v : Str) : Prop :=
  (st.mode = .single ∧ '\'' ∉ v) ∨
  (st.mode = .word ∧ st.stack.head? = some .dq ∧ ∀ c ∈ v, c ∉ ['"', '\\', '$', '`']) ∨
  (v ≠ [] ∧ Plain v ∧ st.mode ∉ [.dollar, .var, .braceVar])

/-- none of the values can do harm where it stands. The shell goes on behind a value as behind a letter. -/
def Harmless : St → List Sym → Prop
  | _, [] => True
  | st, .chr c :: r => Harmless (step st (classOf c)).2 r
  | st, .val v :: r => Keeps st v ∧ Harmless (step st .name).2 r

/-- What the author meant: the characters of the Babfile mean what they mean if a letter stands for each reference, and the
characters of the values stand for themselves, or are in a comment. -/
def meant : St → List Sym → List (Char × Role)
  | _, [] => []
  | st, .chr c :: r => (c, (step st (classOf c)).1) :: meant (step st (classOf c)).2 r
  | st, .val v :: r => v.map (·, if st.mode = .comment then .comment else .text) ++ meant (step st .name).2 r

/-- the operators of a command -/
def operators (s : Str) : Str := (read start s).filterMap fun p => if p.2 = .operator then some p.1 else none

end Bab.Spec.Shell
