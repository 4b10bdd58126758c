import Verif.Model.Writer
/-
What it means for output to be cut into lines, for lines to be kept whole, and for text to be clean.
-/

namespace Bab.Spec
open Bab

/-- `bs` consists of the lines `ls`, each ended by a newline, and the unfinished line `rest` -/
def IsSplit (bs : Bytes) (ls : List Bytes) (rest : Bytes) : Prop :=
  bs = ls.flatMap (· ++ [nl]) ++ rest ∧ (∀ l ∈ ls, nl ∉ l) ∧ nl ∉ rest

/-- the lines of a finished output: an unfinished last line counts if it is not empty -/
def IsLines (bs : Bytes) (ls : List Bytes) : Prop :=
  ∃ full rest, IsSplit bs full rest ∧ ls = full ++ (if rest = [] then [] else [rest])

/-- the part of a line that stays visible: what follows the last carriage return -/
def visible (line : Bytes) : Bytes := (line.reverse.takeWhile (· ≠ cr)).reverse

/-- the lines produced by a sequence of writes and flushes, and what is left over -/
inductive Produces : List (Option Bytes) → List Bytes → Bytes → Prop
  | nil : Produces [] [] []
  | write {ops ls rest d new rest'} : Produces ops ls rest → IsSplit (rest ++ d) new rest' →
      Produces (ops ++ [some d]) (ls ++ new) rest'
  | flush {ops ls rest} : Produces ops ls rest →
      Produces (ops ++ [none]) (ls ++ (if rest = [] then [] else [rest])) []

/-- states reached by any schedule -/
inductive WReach (S : Writers) (prog : Nat → List (Nat × Option Bytes)) : WState → Prop
  | start : WReach S prog (Writers.init prog)
  | step {st t st'} : WReach S prog st → S.step st t = some st' → WReach S prog st'

/-- the mutexes are per block: all writers on the terminal share one, and the mutex of a writer comes after that of its
destination -/
structure WritersOK (S : Writers) (root : Nat) (rank : Nat → Nat) : Prop where
  root : ∀ w, S.parent w = none → S.lock w = root
  up : ∀ w p, S.parent w = some p → rank (S.lock p) < rank (S.lock w)

/-- the writes and flushes writer `w` received, in order -/
def received (evs : List WEvent) (w : Nat) : List (Option Bytes) := (evs.filter (·.w = w)).map (·.data)

/-- the data writer `p` received from the writer `w` inside it -/
def fromChild (evs : List WEvent) (w : Nat) : List (Option Bytes) :=
  (evs.filter (fun e => e.child = some w)).map (·.data)

/-- the calls goroutine `t` itself has made -/
def ownCalls (evs : List WEvent) (t : Nat) : List (Nat × Option Bytes) :=
  (evs.filter (fun e => e.thread = t ∧ e.child = none)).map (fun e => (e.w, e.data))

/-- a line as a writer hands it on: prefix, cleaned text, newline -/
def shown (S : Writers) (w : Nat) (line : Bytes) : Bytes := S.pre w ++ S.clean w (visible line) ++ [nl]

/-- the lines of writer `w` in a list of lines of several writers -/
def linesOf (log : List (Nat × Bytes)) (w : Nat) : List Bytes := (log.filter (·.1 = w)).map (·.2)

/-- a control character a line must not contain -/
def isC0 (c : Char) : Prop := c.toNat < 0x20 ∧ c ≠ '\t' ∧ c ≠ '\x1b'

/-- a character with which a sequence can start -/
def introduces (c : Char) : Bool := c = '\x1b'

/-- What is known about `ansi.DecodeSequence`: it returns a prefix of its input, at least one character; it is in its first state
again, unless the input is over; text has no escape character in it; and a control sequence has one only at the beginning. (The
sequences that set the title of the window and the like can be ended by another escape character and a backslash.) -/
structure Lawful (dec : Decoder) : Prop where
  cut : ∀ input, input ≠ [] → (dec 0 input).seq ≠ [] ∧ (dec 0 input).seq <+: input
  resets : ∀ input, (dec 0 input).state = 0 ∨ (dec 0 input).seq = input
  text : ∀ input, hasEscPrefix (dec 0 input).seq = false → ∀ c ∈ (dec 0 input).seq, introduces c = false
  control : ∀ input, hasCsiPrefix (dec 0 input).seq = true → '\x1b' ∉ (dec 0 input).seq.tail

/-- a sequence that sets colours: starts with the control sequence introducer and is ended by `m` -/
def IsColour (dec : Decoder) (p : Str) : Prop :=
  ∃ input, (dec 0 input).isM = true ∧ p = (dec 0 input).seq ∧ ∃ r, p = '\x1b' :: '[' :: r ∧ '\x1b' ∉ r

/-- What a decoder does that follows the standard: besides, a sequence that sets colours has no control character in it and is
read in the same way whatever follows it. -/
structure Regular (dec : Decoder) : Prop extends Lawful dec where
  colour : ∀ input, hasCsiPrefix (dec 0 input).seq = true → (dec 0 input).isM = true →
    (∀ t, dec 0 ((dec 0 input).seq ++ t) = ⟨(dec 0 input).seq, true, 0⟩) ∧ ∀ c ∈ (dec 0 input).seq, isUnsafeControl c = false

end Bab.Spec
