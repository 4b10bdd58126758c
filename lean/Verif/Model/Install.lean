import Verif.Base
/-
Model of the installers install.sh and install.ps1.

install.sh runs with `set -e`: the first command that fails ends the script, except in conditions; so a function that
returns 1 is `none` here. What curl, wget, the hash programs, tar and GitHub answer is a parameter (`Machine`). Log
messages, `-d`, `-x` and the hint about PATH are left out. The text of `checksums.txt` is given by its lines.

`grep` reads the name of the archive as a basic regular expression. The model covers names in which the dot is the only
special character; the names of releases are made of letters, digits, `_`, `-`, `+` and `.`.

install.ps1 runs with the default `$ErrorActionPreference`. What `Invoke-WebRequest`, `Get-FileHash` and `Expand-Archive`
do is a parameter (`Windows`).
-/

namespace Bab.Inst

/-- the text `pat` matches at the beginning of the line, as a basic regular expression (install.sh 334) -/
def grepAt : Str → Str → Bool
  | [], _ => true
  | _ :: _, [] => false
  | p :: ps, t :: ts => (p = '.' || p = t) && grepAt ps ts

/-- whether grep prints the line (install.sh 334) -/
def grepLine (pat : Str) : Str → Bool
  | [] => grepAt pat []
  | t :: ts => grepAt pat (t :: ts) || grepLine pat ts

/-- `tr '\t' ' ' | cut -d ' ' -f 1` for one line (install.sh 334) -/
def field1 (l : Str) : Str := (l.map fun c => if c = '\t' then ' ' else c).takeWhile (· ≠ ' ')

/-- what `$( )` makes of lines of output: line ends at the end are cut off (install.sh 334) -/
def captured (ls : List Str) : Str :=
  ['\n'].intercalate (ls.reverse.dropWhile (· = [])).reverse

/-- `want` in `hash_sha256_verify` (install.sh 334) -/
def want (name : Str) (sums : List Str) : Str := captured ((sums.filter (grepLine name)).map field1)

/-- the outside world of install.sh (install.sh 89-425) -/
structure Machine where
  /-- `command -v` -/
  has : Str → Bool
  /-- the number and text curl gives for a URL: its exit status, the HTTP status and the body -/
  curl : Str → Nat × Str × Str
  /-- the same for wget -/
  wget : Str → Nat × Str
  /-- the lines of a text that was downloaded -/
  lines : Str → List Str
  /-- the SHA-256 hash of a text, as the programs print it -/
  sha : Str → Str
  /-- whether the hash program succeeds -/
  shaOk : Bool
  /-- the program in the archive, if the archive can be read and contains it -/
  unpack : Str → Option Str
  /-- whether `install` succeeds in this directory -/
  writable : Str → Bool
  uname : Str
  arch : Str
  home : Str
  isDir : Str → Bool
  /-- `BINDIR` in the environment -/
  bindir : Option Str
  /-- what `bab --version` prints, if there is a bab in PATH, and in which directory it is -/
  onPath : Option (Str × Str)
  /-- the tag GitHub finds for the given one -/
  release : Str → Option Str

/-- install.sh 246-284 `http_download` -/
def httpDownload (m : Machine) (url : Str) : Option Str :=
  if m.has "curl".toList then
    if (m.curl url).1 = 0 then
      if (m.curl url).2.1 = "200".toList then some (m.curl url).2.2 else none
    else none
  else if m.has "wget".toList then
    if (m.wget url).1 = 0 then some (m.wget url).2 else none
  else none

/-- install.sh 306-324 `hash_sha256`. The last branch cuts with `-f a`, which is an error of `cut`. -/
def hashSha256 (m : Machine) (file : Str) : Option Str :=
  if m.has "gsha256sum".toList then (if m.shaOk then some (m.sha file) else none)
  else if m.has "sha256sum".toList then (if m.shaOk then some (m.sha file) else none)
  else if m.has "shasum".toList then (if m.shaOk then some (m.sha file) else none)
  else none

/-- install.sh 326-344 `hash_sha256_verify` -/
def hashVerify (m : Machine) (name file : Str) (sums : List Str) : Bool :=
  if want name sums = [] then false
  else match hashSha256 m file with
    | none => false
    | some got => want name sums = got

/-- how install.sh ends (install.sh 409-425) -/
inductive Outcome
  | failed
  | upToDate
  /-- this program has been put in this directory -/
  | installed (dir prog : Str)
  deriving DecidableEq, Repr

/-- install.sh 89-107 `execute` -/
def execute (m : Machine) (bindir tarball tarballUrl checksumUrl : Str) : Outcome :=
  match httpDownload m tarballUrl with
  | none => .failed
  | some file =>
    match httpDownload m checksumUrl with
    | none => .failed
    | some sums =>
      if hashVerify m tarball file (m.lines sums) then
        match m.unpack file with
        | none => .failed
        | some prog => if m.writable bindir then .installed bindir prog else .failed
      else .failed

/-- install.sh 37-45 `get_default_bindir` -/
def defaultBindir (m : Machine) : Str :=
  if m.isDir (m.home ++ "/.local/bin".toList) then m.home ++ "/.local/bin".toList
  else if m.writable "/usr/local/bin".toList then "/usr/local/bin".toList
  else m.home ++ "/.local/bin".toList

/-- install.sh 48, 51: `BINDIR` and the option `-b` -/
def chosenDir (m : Machine) (b : Option Str) : Str :=
  match b with
  | some d => d
  | none => match m.bindir with
    | some d => if d = [] then defaultBindir m else d
    | none => defaultBindir m

/-- the digits at the beginning and the rest (install.sh 70) -/
def digits (s : Str) : Str × Str := (s.takeWhile Char.isDigit, s.dropWhile Char.isDigit)

/-- `[0-9]+\.[0-9]+\.[0-9]+` at the beginning (install.sh 70) -/
def numberAt (s : Str) : Option Str :=
  let (a, s1) := digits s
  match s1 with
  | '.' :: s2 =>
    let (b, s3) := digits s2
    match s3 with
    | '.' :: s4 =>
      let (c, _) := digits s4
      if a = [] ∨ b = [] ∨ c = [] then none else some (a ++ '.' :: b ++ '.' :: c)
    | _ => none
  | _ => none

/-- `v?[0-9]+\.[0-9]+\.[0-9]+` at the beginning (install.sh 70) -/
def versionAt (s : Str) : Option Str :=
  match s with
  | 'v' :: r => (numberAt r).map ('v' :: ·)
  | _ => numberAt s

/-- `grep -oE … | head -n1` (install.sh 68-73 `get_installed_version`) -/
def versionIn : Str → Option Str
  | [] => none
  | c :: s => match versionAt (c :: s) with
    | some v => some v
    | none => versionIn s

/-- `sed 's/^v//'`, `${TAG#v}` (install.sh 79-80, 358) -/
def unv : Str → Str
  | 'v' :: s => s
  | s => s

/-- install.sh 75-87 `compare_versions` -/
def sameVersion (a b : Str) : Bool := unv a = unv b

/-- install.sh 169-177 `uname_os` -/
def unameOs (u : Str) : Str :=
  let os := u.map Char.toLower
  if "cygwin_nt".toList.isPrefixOf os then "windows".toList
  else if "mingw".toList.isPrefixOf os then "windows".toList
  else if "msys_nt".toList.isPrefixOf os then "windows".toList
  else os

/-- install.sh 179-192 `uname_arch` -/
def unameArch (a : Str) : Str :=
  if a = "x86_64".toList then "amd64".toList
  else if a = "x86".toList ∨ a = "i686".toList ∨ a = "i386".toList then "386".toList
  else if a = "aarch64".toList then "arm64".toList
  else if "armv5".toList.isPrefixOf a then "armv5".toList
  else if "armv6".toList.isPrefixOf a then "armv6".toList
  else if "armv7".toList.isPrefixOf a then "armv7".toList
  else a

/-- install.sh 194-211 `uname_os_check` -/
def osKnown (os : Str) : Bool :=
  ["darwin", "dragonfly", "freebsd", "linux", "android", "nacl", "netbsd", "openbsd", "plan9", "solaris", "windows"].any
    fun s => s.toList = os

/-- install.sh 213-231 `uname_arch_check` -/
def archKnown (a : Str) : Bool :=
  ["386", "amd64", "arm64", "armv5", "armv6", "armv7", "ppc64", "ppc64le", "mips64", "mips64le", "s390x", "amd64p32"].any
    fun s => s.toList = a

/-- install.sh 361-366 `adjust_format`, 390 -/
def formatOf (os : Str) : Str := if os = "windows".toList then "zip".toList else "tar.gz".toList

/-- install.sh 368-376 `adjust_os`; `\u` is that of GNU sed -/
def adjustOs (os : Str) : Str :=
  if os = "darwin".toList then "macOS".toList
  else if os = "linux".toList then "Linux".toList
  else if os = "windows".toList then "Windows".toList
  else if os = "freebsd".toList then "Freebsd".toList
  else match os with
    | c :: s => c.toUpper :: s
    | [] => []

/-- install.sh 378-388 `adjust_arch` -/
def adjustArch (a : Str) : Str :=
  if a = "amd64".toList then "x86_64".toList
  else if a = "386".toList then "i386".toList
  else a

/-- `TARBALL` (install.sh 419-420) -/
def tarballName (version uname arch : Str) : Str :=
  "bab_".toList ++ version ++ '_' :: adjustOs (unameOs uname) ++ '_' :: adjustArch (unameArch arch) ++ '.' ::
    formatOf (unameOs uname)

/-- the URL of a file of a release (install.sh 421, 423) -/
def fileUrl (tag name : Str) : Str :=
  "https://github.com/bab-sh/bab/releases/download/".toList ++ tag ++ '/' :: name

/-- install.sh 390-425, with the option `-b` and the tag of the command line (empty if there is none) -/
def install (m : Machine) (b : Option Str) (tag : Str) : Outcome :=
  if osKnown (unameOs m.uname) && archKnown (unameArch m.arch) then
    match m.release tag with
    | none => .failed
    | some real =>
      let tarball := tarballName (unv real) m.uname m.arch
      let go := execute m (chosenDir m b) tarball (fileUrl real tarball) (fileUrl real "checksums.txt".toList)
      match m.onPath.bind fun p => versionIn p.1 with
      | some v => if sameVersion real v then .upToDate else go
      | none => go
  else .failed

/-- the outside world of install.ps1 (install.ps1 102-223) -/
structure Windows where
  /-- `Invoke-WebRequest`; `none` is an exception -/
  web : Str → Option Str
  lines : Str → List Str
  /-- `(Get-FileHash …).Hash`; without one the method call is an exception -/
  hash : Str → Option Str
  /-- the program in the archive -/
  unpack : Str → Option Str

/-- whether the first text occurs in the second (install.ps1 80) -/
def occurs (p : Str) : Str → Bool
  | [] => p.isPrefixOf []
  | t :: ts => p.isPrefixOf (t :: ts) || occurs p ts

/-- `-like "*name*"` for names without wildcards (install.ps1 80) -/
def likeName (name line : Str) : Bool := occurs (name.map Char.toLower) (line.map Char.toLower)

/-- `($checksumLine -split '\s+')[0]` (install.ps1 87) -/
def psField1 (l : Str) : Str := l.takeWhile fun c => !c.isWhitespace

/-- install.ps1 72-100 `Verify-Checksum`; `none` is an exception -/
def verifyChecksum (w : Windows) (name file : Str) (sums : List Str) : Option Bool :=
  match sums.filter (likeName name) with
  | [] => some true
  | l :: _ =>
    match w.hash file with
    | none => none
    | some h => some (h.map Char.toLower = (psField1 l).map Char.toLower)

/-- install.ps1 137-177, from the download to the copy; the result is the program that is installed -/
def psInstall (w : Windows) (name url checksumUrl : Str) : Option Str :=
  match w.web url with
  | none => none
  | some file =>
    let verified : Bool := match w.web checksumUrl with
      | none => true
      | some sums => match verifyChecksum w name file (w.lines sums) with
        | none => true
        | some b => b
    if verified then w.unpack file else none

/-- install.ps1 25-37 `Get-Architecture` -/
def psArch (a : Str) : Option Str :=
  if a = "AMD64".toList then some "x86_64".toList
  else if a = "ARM64".toList then some "arm64".toList
  else if a = "x86".toList then some "i386".toList
  else none

/-- install.ps1 122-126: the name of the archive -/
def psName (version arch : Str) : Option Str :=
  (psArch arch).map fun a => "bab_".toList ++ version ++ "_Windows_".toList ++ a ++ ".zip".toList

end Bab.Inst
