import Verif.Base
/-
Model of internal/update: the cache file (cache.go) and the decisions about update notices (update.go).
The HTTP exchange, JSON, the clock and the version library are parameters.
-/

namespace Bab.Update

/-! ### Saving the cache -/

/-- where a call of `saveCache` is (cache.go 52-104); `name` is the temporary file, `ino` the open file -/
inductive Pc where
  /-- not called yet -/
  | idle
  /-- 81: `tmp.Write`, `rest` is still to be written -/
  | writing (name ino : Nat) (rest : List UInt8)
  /-- 86: before `tmp.Sync` -/
  | written (name ino : Nat)
  /-- 91: before `tmp.Close` -/
  | synced (name ino : Nat)
  /-- 95: before the removal of the old file on Windows and the renaming -/
  | closed (name ino : Nat)
  /-- 99: on Windows, before the renaming -/
  | removed (name ino : Nat)
  /-- returned, or its process died -/
  | finished
deriving DecidableEq

/-- the cache directory and all calls of `saveCache`, in any number of processes (cache.go 52-104) -/
structure Disk where
  /-- contents of the files by file identity (inode) -/
  content : Nat → List UInt8
  /-- the content is on stable storage -/
  durable : Nat → Bool
  /-- identity of the next new file -/
  next : Nat
  /-- temporary file names `update-check-*.tmp` -/
  temp : Nat → Option Nat
  /-- temporary names used at some time -/
  used : Nat → Bool
  /-- the file `update-check.json` -/
  cache : Option Nat
  /-- former values of `cache`; a crash may bring one back, since the directory is never synced -/
  past : List (Option Nat)
  /-- the calls -/
  pc : Nat → Pc

/-- change a function at one place (used for cache.go 52-104) -/
def put {α : Type} (f : Nat → α) (i : Nat) (v : α) : Nat → α := fun j => if j = i then v else f j

/-- cache.go 95: the operating system -/
inductive Os | unix | windows
deriving DecidableEq

/-- One step of some call, of the operating system or a crash. `data i` is the JSON text saved by call `i`. With
`freshNames` the random names of `os.CreateTemp` never repeat; otherwise they only differ from the existing names
(`O_EXCL`) (cache.go 52-104). -/
inductive Step (os : Os) (freshNames : Bool) (data : Nat → List UInt8) : Disk → Disk → Prop
  /-- 68: `os.CreateTemp` -/
  | create (d : Disk) (i name : Nat) : d.pc i = .idle → d.temp name = none → (freshNames = true → d.used name = false) →
      Step os freshNames data d
        { d with
          content := put d.content d.next []
          durable := put d.durable d.next false
          next := d.next + 1
          temp := put d.temp name (some d.next)
          used := put d.used name true
          pc := put d.pc i (.writing name d.next (data i)) }
  /-- 81: the operating system takes some of the bytes -/
  | write (d : Disk) (i name ino : Nat) (chunk rest : List UInt8) : d.pc i = .writing name ino (chunk ++ rest) →
      Step os freshNames data d
        { d with
          content := put d.content ino (d.content ino ++ chunk)
          pc := put d.pc i (.writing name ino rest) }
  /-- 81: all is written -/
  | wrote (d : Disk) (i name ino : Nat) : d.pc i = .writing name ino [] →
      Step os freshNames data d { d with pc := put d.pc i (.written name ino) }
  /-- 86: `tmp.Sync` succeeds -/
  | sync (d : Disk) (i name ino : Nat) : d.pc i = .written name ino →
      Step os freshNames data d { d with durable := put d.durable ino true, pc := put d.pc i (.synced name ino) }
  /-- 91: `tmp.Close` succeeds -/
  | close (d : Disk) (i name ino : Nat) : d.pc i = .synced name ino →
      Step os freshNames data d { d with pc := put d.pc i (.closed name ino) }
  /-- 96: `os.Remove(path)` on Windows; its error is ignored -/
  | remove (d : Disk) (i name ino : Nat) (ok : Bool) : os = .windows → d.pc i = .closed name ino →
      Step os freshNames data d
        { d with
          cache := if ok then none else d.cache
          past := d.cache :: d.past
          pc := put d.pc i (.removed name ino) }
  /-- 99-103: `os.Rename` succeeds: the file that has the temporary name now becomes the cache file -/
  | rename (d : Disk) (i name ino ino' : Nat) :
      d.pc i = (match os with | .windows => .removed name ino | .unix => .closed name ino) → d.temp name = some ino' →
      Step os freshNames data d
        { d with
          cache := some ino'
          past := d.cache :: d.past
          temp := put d.temp name none
          pc := put d.pc i .finished }
  /-- 54-72: an error before the temporary file exists -/
  | giveUp (d : Disk) (i : Nat) : d.pc i = .idle →
      Step os freshNames data d { d with pc := put d.pc i .finished }
  /-- 75-79 after an error of writing, syncing, closing or renaming: remove the temporary name -/
  | fail (d : Disk) (i name ino : Nat) (removed : Bool) :
      (d.pc i = .written name ino ∨ d.pc i = .synced name ino ∨ d.pc i = .closed name ino ∨ d.pc i = .removed name ino ∨
        ∃ rest, d.pc i = .writing name ino rest) →
      Step os freshNames data d
        { d with temp := if removed then put d.temp name none else d.temp, pc := put d.pc i .finished }
  /-- 106-127 `cleanupTempFiles` of some call removes a temporary file it takes for abandoned; since clocks can jump, any -/
  | cleanup (d : Disk) (name : Nat) :
      Step os freshNames data d { d with temp := put d.temp name none }
  /-- the process of call `i` dies -/
  | kill (d : Disk) (i : Nat) : Step os freshNames data d { d with pc := put d.pc i .finished }
  /-- The machine crashes: every running call ends; contents not on stable storage become arbitrary; temporary names are
  arbitrary; the cache file may be a former one. -/
  | crash (d d' : Disk) :
      (∀ i, d'.pc i = .idle ∧ d.pc i = .idle ∨ d'.pc i = .finished) →
      (∀ k, d.durable k = true → d'.content k = d.content k ∧ d'.durable k = true) →
      d'.next = d.next → d'.used = d.used → d'.cache ∈ d.cache :: d.past → (∀ x ∈ d'.past, x ∈ d.cache :: d.past) →
      (∀ name, d.used name = false → d'.temp name = d.temp name) →
      Step os freshNames data d d'

/-- any number of steps (cache.go 52-104) -/
inductive Steps (os : Os) (freshNames : Bool) (data : Nat → List UInt8) : Disk → Disk → Prop
  | refl (d : Disk) : Steps os freshNames data d d
  | step {a b c : Disk} : Steps os freshNames data a b → Step os freshNames data b c → Steps os freshNames data a c

/-- what a reader of the cache file finds (`os.ReadFile`, cache.go 31) -/
def Disk.read (d : Disk) : Option (List UInt8) := d.cache.map d.content

/-! ### Decisions -/

/-- cache.go 19-23 `cache`; times are in nanoseconds -/
structure Cached where
  checkedAt : Int
  latest : Str
  etag : Str
deriving DecidableEq

/-- cache.go 25-50 `loadCache`; `file` is the content if it can be read, `decode` is `json.Unmarshal` -/
def loadCache (decode : List UInt8 → Option Cached) (file : Option (List UInt8)) (now : Int) : Option Cached :=
  match file with
  | none => none
  | some data => match decode data with
    | none => none
    | some c => if c.latest = [] then none else if c.checkedAt > now then none else some c

/-- cache.go 16 `cacheDuration` -/
def cacheDuration : Int := 24 * 60 * 60 * 1000000000

/-- cache.go 129-134 `isValid` -/
def isValid (c : Option Cached) (now : Int) : Bool :=
  match c with
  | none => false
  | some c => now - c.checkedAt < cacheDuration

/-- update.go 78-92 `shouldSkip`; `env` is `os.Getenv` -/
def shouldSkip (env : Str → Str) (current : Str) : Bool :=
  if env "BAB_NO_UPDATE_CHECK".toList = "1".toList then true
  else if env "CI".toList = "true".toList || env "CI".toList = "1".toList then true
  else if current = "dev".toList || current = [] then true
  else false

/-- `strings.TrimPrefix(_, "v")` (update.go 162-163) -/
def trimV : Str → Str
  | 'v' :: r => r
  | x => x

/-- update.go 161-180 `isNewer`; `parse` is `goversion.NewVersion`, `gt` its `GreaterThan` -/
def isNewer {V : Type} (parse : Str → Option V) (gt : V → V → Bool) (latest current : Str) : Bool :=
  if trimV latest = [] || trimV current = [] then false
  else match parse (trimV latest) with
    | none => false
    | some l => match parse (trimV current) with
      | none => false
      | some c => gt l c

/-- update.go 22-25 `Info` -/
structure Info where
  current : Str
  latest : Str
deriving DecidableEq

/-- update.go 37-49 `CheckCached` -/
def checkCached {V : Type} (env : Str → Str) (decode : List UInt8 → Option Cached) (parse : Str → Option V)
    (gt : V → V → Bool) (file : Option (List UInt8)) (now : Int) (current : Str) : Option Info :=
  if shouldSkip env current then none
  else match loadCache decode file now with
    | none => none
    | some c => if isNewer parse gt c.latest current then some ⟨current, c.latest⟩ else none

/-- what the server sends: no answer, or a status, the `tag_name` of the body if it can be decoded, and the `ETag`
(update.go 111-159) -/
inductive Answer
  | failed
  | response (status : Nat) (tag : Option Str) (etag : Str)

/-- update.go 111-159 `fetchLatestVersion`; `none` is an error -/
def fetchLatest (a : Answer) (cached : Option Cached) : Option (Str × Str) :=
  match a with
  | .failed => none
  | .response status tag etag =>
    match (if status = 304 then cached else none) with
    | some c => some (c.latest, c.etag)
    | none =>
      if status ≠ 200 then none
      else match tag with
        | none => none
        | some t => if t = [] then none else some (t, etag)

/-- update.go 94-109 `refreshCache`: what it saves -/
def refreshCache (a : Answer) (cached : Option Cached) (now : Int) : Option Cached :=
  match fetchLatest a cached with
  | none => none
  | some (latest, etag) => if latest = [] then none else some ⟨now, latest, etag⟩

/-- update.go 27-35 `StartBackgroundRefresh`: the cache given to the refresh if one is started -/
def startRefresh (env : Str → Str) (decode : List UInt8 → Option Cached) (file : Option (List UInt8)) (now : Int)
    (current : Str) : Option (Option Cached) :=
  if shouldSkip env current then none
  else
    let cached := loadCache decode file now
    if cached = none || !isValid cached now then some cached else none

/-- update.go 51-76 `ForceCheck`: what it saves and the notice -/
def forceCheck {V : Type} (env : Str → Str) (parse : Str → Option V) (gt : V → V → Bool) (a : Answer) (now : Int)
    (current : Str) : Option Cached × Option Info :=
  if shouldSkip env current then (none, none)
  else match fetchLatest a none with
    | none => (none, none)
    | some (latest, etag) =>
      (if latest ≠ [] then some ⟨now, latest, etag⟩ else none,
       if isNewer parse gt latest current then some ⟨current, latest⟩ else none)

end Bab.Update
