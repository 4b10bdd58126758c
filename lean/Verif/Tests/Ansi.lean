import Verif.Model.Ansi
/-
The cases of internal/runner/writer_test.go about cleaning, run on the model of the library. These are tests of the model, not proofs.
-/

namespace Bab.TestAnsi

/-- the bytes of a text of ASCII characters -/
private def bytes (s : String) : Bytes := s.toList.map fun c => UInt8.ofNat c.toNat

/-- such a text from its bytes -/
private def text (b : Bytes) : String := String.ofList (b.map fun x => Char.ofNat x.toNat)

private def clean (noColor : Bool) (s : String) : String := text (Raw.cleanLine (Ansi.decode fun _ => 1) Ansi.strip noColor (bytes s))

-- 68-74 TestSanitizeLineKeepsSGR
example : clean false "\x1b[31mred text\x1b[0m" = "\x1b[31mred text\x1b[0m" := by decide +kernel

-- 76-97 TestSanitizeLineStripsDangerous
example : clean false "\x1b[2Jhello" = "hello" := by decide +kernel
example : clean false "\x1b[Hhello" = "hello" := by decide +kernel
example : clean false "\x1b[?1049hhello" = "hello" := by decide +kernel
example : clean false "\x1b]0;title\x07hello" = "hello" := by decide +kernel
example : clean false "no escapes here" = "no escapes here" := by decide +kernel
example : clean false "\x1b[31mred\x1b[2J gone\x1b[0m" = "\x1b[31mred gone\x1b[0m" := by decide +kernel

-- 99-113 TestCleanLineStripAll, TestCleanLineKeepSGR
example : clean true "\x1b[31mcolored\x1b[0m" = "colored" := by decide +kernel
example : clean false "\x1b[31mcolored\x1b[0m" = "\x1b[31mcolored\x1b[0m" := by decide +kernel

end Bab.TestAnsi
