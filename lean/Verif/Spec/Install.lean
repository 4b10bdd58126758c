import Verif.Base
import Mathlib.Data.List.Infix

/- What the installers are expected to do, without reference to their code. -/

namespace Bab.Inst.Spec

/-- the checksum file of a release says that the file `name` has the hash `h` (the format of sha256sum, which goreleaser
uses: .goreleaser.yaml 82-87) -/
def Published (sums : List Str) (name h : Str) : Prop :=
  h ++ "  ".toList ++ name ∈ sums ∧ h ≠ [] ∧ ' ' ∉ h ∧ '\t' ∉ h

/-- what is built for a release: system, architecture, variant of ARM (.goreleaser.yaml 25-40; there is no 32 bit ARM for
macOS) -/
inductive Build
  | linuxAmd64 | linuxArm64 | linuxArm7 | darwinAmd64 | darwinArm64 | windowsAmd64
  deriving DecidableEq, Repr

/-- the part of the name of an archive behind the version (.goreleaser.yaml 60-75) -/
def Build.tail : Build → String
  | .linuxAmd64 => "Linux_x86_64.tar.gz"
  | .linuxArm64 => "Linux_arm64.tar.gz"
  | .linuxArm7 => "Linux_armv7.tar.gz"
  | .darwinAmd64 => "macOS_x86_64.tar.gz"
  | .darwinArm64 => "macOS_arm64.tar.gz"
  | .windowsAmd64 => "Windows_x86_64.zip"

/-- the name of an archive (.goreleaser.yaml 66-75) -/
def archive (version : Str) (b : Build) : Str := "bab_".toList ++ version ++ '_' :: b.tail.toList

/-- what `uname -s` and `uname -m` print on the machines a build is made for -/
inductive RunsOn : Str → Str → Build → Prop
  | linux64 : RunsOn "Linux".toList "x86_64".toList .linuxAmd64
  | linuxArm : RunsOn "Linux".toList "aarch64".toList .linuxArm64
  | linuxArm' : RunsOn "Linux".toList "arm64".toList .linuxArm64
  | linuxArm7 (more : Str) : RunsOn "Linux".toList ("armv7".toList ++ more) .linuxArm7
  | mac64 : RunsOn "Darwin".toList "x86_64".toList .darwinAmd64
  | macArm : RunsOn "Darwin".toList "arm64".toList .darwinArm64
  | mingw (more : Str) : RunsOn ("MINGW".toList ++ more) "x86_64".toList .windowsAmd64
  | msys (more : Str) : RunsOn ("MSYS_NT".toList ++ more) "x86_64".toList .windowsAmd64
  | cygwin (more : Str) : RunsOn ("CYGWIN_NT".toList ++ more) "x86_64".toList .windowsAmd64

end Bab.Inst.Spec
