import Verif.Model.Writer
/-
The cases of internal/runner/writer_test.go, run on the model. These are tests of the model, not proofs.
-/

namespace Bab.TestOutput

/-- the bytes of a text of ASCII characters -/
private def bytes (s : String) : Bytes := s.toList.map fun c => UInt8.ofNat c.toNat

/-- such a text from its bytes -/
private def text (b : Bytes) : Str := b.map fun x => Char.ofNat x.toNat

/-- how many characters belong to the escape sequence after `ESC [`, and whether it ends in `m` -/
private def csi : Nat → Str → Nat × Bool
  | k, [] => (k, false)
  | k, c :: r => if 0x40 ≤ c.toNat && c.toNat ≤ 0x7e then (k + 1, c = 'm') else csi (k + 1) r

/-- how many characters there are up to the bell -/
private def osc : Nat → Str → Nat
  | k, [] => k
  | k, c :: r => if c = '\x07' then k + 1 else osc (k + 1) r

/-- the library's decoder, as far as the cases need it -/
private def dec : Decoder := fun state input =>
  match input with
  | '\x1b' :: '[' :: r => let n := csi 0 r; ⟨input.take (2 + n.1), n.2, state⟩
  | '\x1b' :: ']' :: r => ⟨input.take (2 + osc 0 r), false, state⟩
  | _ => ⟨input.take 1, false, state⟩

/-- `ansi.Strip`, as far as the cases need it. The number bounds the length of the text. -/
private def strip : Nat → Str → Str
  | 0, _ => []
  | n + 1, input =>
    if input = [] then []
    else
      let d := (dec 0 input).seq
      (if hasEscPrefix d then [] else d) ++ strip n (input.drop d.length)

private def clean (noColor : Bool) (b : Bytes) : String := String.ofList (cleanLine dec (fun s => strip s.length s) (text b) noColor)

private def sane (s : String) : String := String.ofList (sanitizeLine dec s.toList)

-- 68-74 TestSanitizeLineKeepsSGR
example : sane "\x1b[31mred text\x1b[0m" = "\x1b[31mred text\x1b[0m" := by decide +kernel

-- 76-97 TestSanitizeLineStripsDangerous
example : sane "\x1b[2Jhello" = "hello" := by decide +kernel
example : sane "\x1b[Hhello" = "hello" := by decide +kernel
example : sane "\x1b[?1049hhello" = "hello" := by decide +kernel
example : sane "\x1b]0;title\x07hello" = "hello" := by decide +kernel
example : sane "no escapes here" = "no escapes here" := by decide +kernel
example : sane "\x1b[31mred\x1b[2J gone\x1b[0m" = "\x1b[31mred gone\x1b[0m" := by decide +kernel

-- 99-113 TestCleanLineStripAll, TestCleanLineKeepSGR
example : clean true (bytes "\x1b[31mcolored\x1b[0m") = "colored" := by decide +kernel
example : clean false (bytes "\x1b[31mcolored\x1b[0m") = "\x1b[31mcolored\x1b[0m" := by decide +kernel

/-- the lines emitted by a line buffer, with or without a flush at the end -/
private def emitted (noColor fl : Bool) (writes : List String) : List String :=
  let r := writeAll (clean noColor) [] (writes.map bytes)
  r.2 ++ (if fl then (flush (clean noColor) r.1).2 else [])

-- 127-208 TestLineBuffer
example : emitted false false ["hello\n"] = ["hello"] := by decide +kernel
example : emitted false false ["line1\nline2\n"] = ["line1", "line2"] := by decide +kernel
example : emitted false false ["hel"] = [] := by decide +kernel
example : emitted false false ["hel", "lo\n"] = ["hello"] := by decide +kernel
example : emitted false true ["partial"] = ["partial"] := by decide +kernel
example : emitted false true ["done\n"] = ["done"] := by decide +kernel
example : emitted true false ["\x1b[31mred\x1b[0m\n"] = ["red"] := by decide +kernel
example : emitted false false ["\x1b[31mred\x1b[0m\n"] = ["\x1b[31mred\x1b[0m"] := by decide +kernel

-- 216-236 TestColorForPath
example : colorForPath [] = parallelBaseColors[0] := by decide +kernel
example : colorForPath [0] = parallelBaseColors[0] := by decide +kernel
example : colorForPath [1] = parallelBaseColors[1] := by decide +kernel
example : colorForPath [parallelBaseColors.length] = parallelBaseColors[0] := by decide +kernel
example : colorForPath [0, 0] = dimColor parallelBaseColors[0] 1 := by decide +kernel

-- 238-293 TestDimColor
example : dimColor 10 1 = 10 := by decide +kernel
example : dimColor 240 1 = 240 := by decide +kernel
example : dimColor 196 1 ≠ 196 := by decide +kernel
example : dimColor 196 2 ≠ dimColor 196 1 := by decide +kernel

end Bab.TestOutput
