import Verif.Proof.Install

/- C88 – C91: the installers. -/

namespace Bab

open Inst Inst.Spec

namespace Sample

/-- a Linux machine and a release with one archive, whose hash is the text itself -/
def linux : Machine where
  has c := c = "curl".toList ∨ c = "sha256sum".toList
  curl u := if "checksums.txt".toList.isSuffixOf u then (0, "200".toList, "abc  bab_1.2.3_Linux_x86_64.tar.gz".toList)
    else (0, "200".toList, "abc".toList)
  wget _ := (1, [])
  lines s := [s]
  sha f := f
  shaOk := true
  unpack f := some f
  writable _ := true
  uname := "Linux".toList
  arch := "x86_64".toList
  home := "/home/u".toList
  isDir _ := true
  bindir := none
  onPath := none
  release _ := some "v1.2.3".toList

/-- the same machine with a bab on it -/
def linuxWith (out dir : String) : Machine := { linux with onPath := some (out.toList, dir.toList) }

end Sample

/-! ### C88: install.sh installs only an archive with the published hash -/

/-- C88 for install.sh: if a program is installed, it comes from an archive that was downloaded and has the hash the
checksum file of the same release gives for this archive, if it gives any; in any case it has the hash of a line
that mentions (something like) its name. -/
theorem C88_sh_verified (m : Machine) (hn : ∀ f, '\n' ∉ m.sha f) (b : Option Str) (tag dir prog : Str)
    (h : install m b tag = .installed dir prog) :
    ∃ real file sums, m.release tag = some real ∧
      httpDownload m (fileUrl real (tarballName (unv real) m.uname m.arch)) = some file ∧
      httpDownload m (fileUrl real "checksums.txt".toList) = some sums ∧
      m.unpack file = some prog ∧
      (∀ x, Published (m.lines sums) (tarballName (unv real) m.uname m.arch) x → m.sha file = x) ∧
      ∃ l ∈ m.lines sums, grepLine (tarballName (unv real) m.uname m.arch) l = true ∧ field1 l = m.sha file := by
  obtain ⟨real, hr, he⟩ := install_installed h
  obtain ⟨file, sums, h1, h2, hv, hu, _, _⟩ := execute_installed he
  refine ⟨real, file, sums, hr, h1, h2, hu, ?_⟩
  unfold hashVerify at hv
  split at hv
  · cases hv
  · rename_i hne
    split at hv
    · cases hv
    · rename_i got hg
      have hw : want (tarballName (unv real) m.uname m.arch) (m.lines sums) = m.sha file := by
        rw [← hashSha256_eq hg]; simpa using hv
      obtain ⟨hex, hall⟩ := want_single (hn file) (hw ▸ hne) hw
      refine ⟨fun x hx => ?_, hex⟩
      obtain ⟨hm, hxn, hs, ht⟩ := hx
      have hf := field1_published hs ht (tarballName (unv real) m.uname m.arch)
      have hgl : grepLine (tarballName (unv real) m.uname m.arch) (x ++ "  ".toList ++ tarballName (unv real) m.uname m.arch) = true := by
        have := grepLine_append (x ++ "  ".toList) (tarballName (unv real) m.uname m.arch) []
        rwa [List.append_nil] at this
      rcases hall _ hm hgl with e | e
      · rw [← e, hf]
      · rw [hf] at e; exact absurd e hxn

/-- C88 for install.sh, the other direction: an archive with the published hash is not rejected, provided that no other
line mentions its name. -/
theorem C88_sh_accepts (m : Machine) (name file : Str) (sums : List Str) (pre post : List Str)
    (hs : sums = pre ++ (m.sha file ++ "  ".toList ++ name) :: post)
    (hp : Published sums name (m.sha file)) (ho : ∀ l ∈ pre ++ post, grepLine name l = false)
    (ht : m.has "sha256sum".toList = true) (hk : m.shaOk = true) : hashVerify m name file sums = true := by
  obtain ⟨_, hne, h1, h2⟩ := hp
  have hgl : grepLine name (m.sha file ++ "  ".toList ++ name) = true := by
    have := grepLine_append (m.sha file ++ "  ".toList) name []
    rwa [List.append_nil] at this
  have e1 : pre.filter (grepLine name) = [] := by
    rw [List.filter_eq_nil_iff]; intro l hl; simp [ho l (List.mem_append_left _ hl)]
  have e2 : post.filter (grepLine name) = [] := by
    rw [List.filter_eq_nil_iff]; intro l hl; simp [ho l (List.mem_append_right _ hl)]
  have hw : want name sums = m.sha file := by
    unfold want
    rw [hs, List.filter_append, List.filter_cons_of_pos hgl, e1, e2, List.nil_append, List.map_cons, List.map_nil,
      field1_published h1 h2]
    simp [captured, hne]
  have hh : hashSha256 m file = some (m.sha file) := by
    unfold hashSha256
    rw [ht, hk]
    by_cases hg : m.has "gsha256sum".toList = true
    · rw [if_pos hg]; rfl
    · rw [if_neg hg]; rfl
  unfold hashVerify
  rw [hw, if_neg hne, hh]
  simp

/-- The sample is installed, and its archive is published with its hash. -/
example : install Sample.linux none [] = .installed "/home/u/.local/bin".toList "abc".toList ∧
    Published (Sample.linux.lines "abc  bab_1.2.3_Linux_x86_64.tar.gz".toList)
      (tarballName "1.2.3".toList Sample.linux.uname Sample.linux.arch) "abc".toList := by
  refine ⟨by decide +kernel, ?_⟩
  unfold Published
  decide +kernel

/-- With openssl as the only program for hashes nothing is ever installed by install.sh, though it is provided for. -/
theorem C88_openssl_useless (m : Machine) (h1 : m.has "gsha256sum".toList = false) (h2 : m.has "sha256sum".toList = false)
    (h3 : m.has "shasum".toList = false) (b : Option Str) (tag dir prog : Str) : install m b tag ≠ .installed dir prog := by
  intro h
  obtain ⟨real, _, he⟩ := install_installed h
  obtain ⟨file, sums, _, _, hv, _⟩ := execute_installed he
  have : hashSha256 m file = none := by
    unfold hashSha256
    rw [h1, h2, h3]; rfl
  unfold hashVerify at hv
  rw [this] at hv
  split at hv <;> cases hv

/-! ### C89: after a successful installation the requested version is where the user wants it -/

/-- C89: what is installed goes to the directory of `-b`; without it to that of the environment. -/
theorem C89_place (m : Machine) (b : Option Str) (tag dir prog : Str) (h : install m b tag = .installed dir prog) :
    (∀ d, b = some d → dir = d) ∧ (∀ d, b = none → m.bindir = some d → d ≠ [] → dir = d) := by
  obtain ⟨real, _, he⟩ := install_installed h
  obtain ⟨file, sums, _, _, _, _, _, hd⟩ := execute_installed he
  subst hd
  refine ⟨fun d hb => by rw [hb]; rfl, fun d hb hm hne => ?_⟩
  rw [hb]
  simp [chosenDir, hm, hne]

/-- C89, the part that holds: where no bab is found in PATH, or one of another version, the script does not end with
success unless it has installed the program in the directory of `-b`. Missing: a bab of the same version in PATH, where
it fails. -/
theorem C89_installed_partial (m : Machine) (d tag : Str)
    (hp : ∀ real p, m.release tag = some real → m.onPath = some p → ∀ v, versionIn p.1 = some v → unv real ≠ unv v)
    (hs : install m (some d) tag ≠ .failed) : ∃ prog, install m (some d) tag = .installed d prog := by
  cases h : install m (some d) tag with
  | failed => exact absurd h hs
  | installed dir prog => exact ⟨prog, by rw [(C89_place m (some d) tag dir prog h).1 d rfl]⟩
  | upToDate =>
    exfalso
    unfold install at h
    split at h
    · split at h
      · cases h
      · rename_i real hr
        dsimp only at h
        split at h
        · rename_i v hv
          split at h
          · rename_i hsv
            obtain ⟨p, hp1, hp2⟩ := Option.bind_eq_some_iff.1 hv
            exact hp real p hr hp1 v hp2 (by simpa [sameVersion] using hsv)
          · exact execute_ne_upToDate _ _ _ _ _ h
        · exact execute_ne_upToDate _ _ _ _ _ h
    · cases h

/-- C89 fails: a bab of the same version anywhere in PATH keeps install.sh from installing, whichever directory was asked
for. -/
theorem C89_elsewhere (m : Machine) (out where_ tag real v d : Str) (hk : osKnown (unameOs m.uname) = true)
    (ha : archKnown (unameArch m.arch) = true) (hr : m.release tag = some real) (hp : m.onPath = some (out, where_))
    (hv : versionIn out = some v) (he : unv real = unv v) : install m (some d) tag = .upToDate := by
  unfold install
  rw [hk, ha, hr, hp]
  simp [hv, sameVersion, he]

/-- C89 fails for a pre-release: it is taken for the release that follows. -/
theorem C89_prerelease : install (Sample.linuxWith "bab version 1.2.3-rc1" "/usr/local/bin") none "v1.2.3".toList = .upToDate := by
  decide +kernel

/-- The sample: installed in the directory asked for, if there is no bab or an older one; not if there is one elsewhere. -/
example : install Sample.linux (some "/opt".toList) [] = .installed "/opt".toList "abc".toList ∧
    install (Sample.linuxWith "bab version 1.2.2" "/usr/bin") (some "/opt".toList) [] = .installed "/opt".toList "abc".toList ∧
    install (Sample.linuxWith "bab version 1.2.3" "/usr/bin") (some "/opt".toList) [] = .upToDate := by
  decide +kernel

/-! ### C90: the installers ask for the archive that is released for the machine -/

/-- C90 for install.sh: on every machine there is a build for, the name of the archive is that of the build, for every
version. -/
theorem C90_sh_name (version u a : Str) (b : Build) (h : RunsOn u a b) : tarballName version u a = archive version b := by
  have fin : ∀ os ar : Str, adjustOs (unameOs u) = os → adjustArch (unameArch a) = ar →
      b.tail.toList = os ++ '_' :: ar ++ '.' :: formatOf (unameOs u) → tarballName version u a = archive version b := by
    intro os ar h1 h2 h3
    unfold tarballName archive
    rw [h1, h2, h3]
    simp only [List.append_assoc, List.cons_append]
  cases h with
  | linux64 => exact fin _ _ rfl rfl (by decide +kernel)
  | linuxArm => exact fin _ _ rfl rfl (by decide +kernel)
  | linuxArm' => exact fin _ _ rfl rfl (by decide +kernel)
  | linuxArm7 more =>
    have : unameArch ("armv7".toList ++ more) = "armv7".toList := by
      unfold unameArch
      simp
    exact fin _ "armv7".toList rfl (by rw [this]; decide +kernel) (by decide +kernel)
  | mac64 => exact fin _ _ rfl rfl (by decide +kernel)
  | macArm => exact fin _ _ rfl rfl (by decide +kernel)
  | mingw more =>
    have : unameOs ("MINGW".toList ++ more) = "windows".toList := by
      simp [unameOs]
    exact fin "Windows".toList _ (by rw [this]; decide +kernel) rfl (by rw [this]; decide +kernel)
  | msys more =>
    have : unameOs ("MSYS_NT".toList ++ more) = "windows".toList := by
      simp [unameOs]
    exact fin "Windows".toList _ (by rw [this]; decide +kernel) rfl (by rw [this]; decide +kernel)
  | cygwin more =>
    have : unameOs ("CYGWIN_NT".toList ++ more) = "windows".toList := by
      simp [unameOs]
    exact fin "Windows".toList _ (by rw [this]; decide +kernel) rfl (by rw [this]; decide +kernel)

/-- C90: and the script does not refuse such a machine. -/
theorem C90_sh_known (u a : Str) (b : Build) (h : RunsOn u a b) :
    osKnown (unameOs u) = true ∧ archKnown (unameArch a) = true := by
  cases h with
  | linuxArm7 more =>
    refine ⟨by decide +kernel, ?_⟩
    have : unameArch ("armv7".toList ++ more) = "armv7".toList := by
      unfold unameArch
      simp
    rw [this]; decide +kernel
  | mingw more =>
    have : unameOs ("MINGW".toList ++ more) = "windows".toList := by simp [unameOs]
    rw [this]; decide +kernel
  | msys more =>
    have : unameOs ("MSYS_NT".toList ++ more) = "windows".toList := by simp [unameOs]
    rw [this]; decide +kernel
  | cygwin more =>
    have : unameOs ("CYGWIN_NT".toList ++ more) = "windows".toList := by simp [unameOs]
    rw [this]; decide +kernel
  | linux64 => decide +kernel
  | linuxArm => decide +kernel
  | linuxArm' => decide +kernel
  | mac64 => decide +kernel
  | macArm => decide +kernel

/-- C90 for install.ps1 on 64 bit Intel. -/
theorem C90_ps_name (version : Str) : psName version "AMD64".toList = some (archive version .windowsAmd64) := by
  unfold psName archive
  have : psArch "AMD64".toList = some "x86_64".toList := by decide +kernel
  rw [this]
  simp [Build.tail]

/-- C90 fails for the two other architectures install.ps1 calls supported: it asks for archives no release has. -/
theorem C90_ps_missing (version name : Str) (h : psName version "ARM64".toList = some name ∨ psName version "x86".toList = some name)
    (b : Build) : name ≠ archive version b := by
  have h1 : psArch "ARM64".toList = some "arm64".toList := by decide +kernel
  have h2 : psArch "x86".toList = some "i386".toList := by decide +kernel
  unfold psName at h
  rw [h1, h2] at h
  intro e
  rcases h with h | h <;>
  · obtain rfl := Option.some.inj h
    unfold archive at e
    dsimp only at e
    simp only [List.append_assoc] at e
    have e := List.append_cancel_left (List.append_cancel_left e)
    revert e
    cases b <;> decide +kernel

/-! ### C91: install.ps1 installs only what it has verified -/

/-- C91 fails: whatever was downloaded is installed if the checksum file cannot be got. -/
theorem C91_ps_unverified (w : Windows) (name url sumsUrl file prog : Str) (hf : w.web url = some file)
    (hs : w.web sumsUrl = none) (hu : w.unpack file = some prog) : psInstall w name url sumsUrl = some prog := by
  simp [psInstall, hf, hs, hu]

/-- The same if it can be got but has no line for the archive, or if the hash cannot be computed. -/
theorem C91_ps_unlisted (w : Windows) (name url sumsUrl file sums prog : Str) (hf : w.web url = some file)
    (hs : w.web sumsUrl = some sums) (hu : w.unpack file = some prog)
    (hl : (∀ l ∈ w.lines sums, likeName name l = false) ∨ w.hash file = none) :
    psInstall w name url sumsUrl = some prog := by
  unfold psInstall verifyChecksum
  rw [hf, hs]
  dsimp only
  cases hfl : (w.lines sums).filter (likeName name) with
  | nil => simp [hu]
  | cons l t =>
    rcases hl with hl | hl
    · exfalso
      have : l ∈ (w.lines sums).filter (likeName name) := by rw [hfl]; exact List.mem_cons_self
      obtain ⟨h1, h2⟩ := List.mem_filter.1 this
      rw [hl l h1] at h2; cases h2
    · rw [hl]; simp [hu]

/-- C91, the part that holds: with a checksum file that mentions the archive, and a hash that can be
computed, only an archive with the hash of the first such line is installed. Missing: the cases above, where it fails. -/
theorem C91_ps_verified_partial (w : Windows) (name url sumsUrl file sums prog h : Str) (hf : w.web url = some file)
    (hs : w.web sumsUrl = some sums) (hh : w.hash file = some h)
    (hl : ∃ l ∈ w.lines sums, likeName name l = true) (hi : psInstall w name url sumsUrl = some prog) :
    w.unpack file = some prog ∧ ∃ l ∈ w.lines sums, likeName name l = true ∧
      h.map Char.toLower = (psField1 l).map Char.toLower := by
  unfold psInstall verifyChecksum at hi
  rw [hf, hs] at hi
  dsimp only at hi
  cases hfl : (w.lines sums).filter (likeName name) with
  | nil =>
    obtain ⟨l, h1, h2⟩ := hl
    rw [List.filter_eq_nil_iff] at hfl
    exact absurd h2 (hfl l h1)
  | cons l t =>
    rw [hfl, hh] at hi
    have hm : l ∈ (w.lines sums).filter (likeName name) := by rw [hfl]; exact List.mem_cons_self
    obtain ⟨h1, h2⟩ := List.mem_filter.1 hm
    dsimp only at hi
    split at hi
    · rename_i he
      exact ⟨hi, l, h1, h2, by simpa using he⟩
    · cases hi

/-- A download that is not what was published is installed when the checksum file is missing, and rejected when it is
there. -/
example :
    let w (there : Bool) : Windows :=
      { web := fun u => if u = "s".toList then (if there then some "abc  n.zip".toList else none) else some "evil".toList
        lines := fun s => [s], hash := fun f => some f, unpack := fun f => some f }
    psInstall (w false) "n.zip".toList "u".toList "s".toList = some "evil".toList ∧
    psInstall (w true) "n.zip".toList "u".toList "s".toList = none := by
  decide +kernel

end Bab
