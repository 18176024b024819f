/-
Finding workers.

A worker makes itself known by a file in a shared directory (the "brokerage"), named after
its address.  A client lists the directory.  This file models

* `WorkerBrokerage.cpp` (B), which turns `FASTBUILD_BROKERAGE_PATH` into directories,
* `WorkerBrokerageServer.cpp` (S), called by a worker about every half second,
* `WorkerBrokerageClient.cpp` (C), called by a client when it starts,

all of Code/Tools/FBuild/FBuildCore/WorkerPool.

Simplifications: the shared file system is a list of files named by their whole path, and two
paths are the same when they are spelled the same; directories are not files and making them
(S:174) is part of whether a file can be opened; timers and file times are integers in
milliseconds and comparing them is exact (the code compares floats); the numbers written to the
file are given as text already.
-/
import Verif.Str.TextModel

namespace Verif.Broker

abbrev Text := List Char

/-- The separators of paths and the tail of a brokerage directory of a platform
(B:64-70; `Protocol::kVersionMajor`, Protocol.h:34). -/
structure Plat where
  slash : Char
  tail : Text
  deriving DecidableEq

def windows : Plat := ⟨'\\', "\\main\\22.windows\\".toList⟩
def osx : Plat := ⟨'/', "/main/22.osx/".toList⟩
def linux : Plat := ⟨'/', "/main/22.linux/".toList⟩

/-- `AString::TrimStart( ' ' )` -/
def trimStart (s : Text) : Text := s.dropWhile (· == ' ')

/-- `AString::TrimEnd( ' ' )` -/
def trimEnd (s : Text) : Text := (s.reverse.dropWhile (· == ' ')).reverse

/-- One directory (B:61-70). -/
def rootOf (pl : Plat) (piece : Text) : Text := trimEnd (trimStart piece) ++ pl.tail

/-- The loop over the pieces of the variable (B:47-88); `fuel` bounds the rounds, of which there
is at most one for each character, and one more. -/
def rootsLoop (pl : Plat) : Nat → Text → List Text
  | 0, _ => []
  | fuel + 1, s =>
      match s.dropWhile (· != ';') with
      | [] => [rootOf pl s]
      | _ :: rest => rootOf pl (s.takeWhile (· != ';')) :: rootsLoop pl fuel rest

/-- `WorkerBrokerage::InitBrokerage` (B:26-92): `none` is a variable that is not set. -/
def initBrokerage (pl : Plat) (var : Option Text) : List Text :=
  match var with
  | none => []
  | some s => rootsLoop pl (s.length + 1) s

/-! ### Files -/

structure File where
  content : Text
  time : Int
  deriving DecidableEq

/-- The shared file system: files by their whole path. -/
abbrev Fs := List (Text × File)

def Fs.find (fs : Fs) (p : Text) : Option File := fs.lookup p

def Fs.delete (fs : Fs) (p : Text) : Fs := fs.filter (·.1 != p)

/-- Creating a file anew, or replacing it. -/
def Fs.write (fs : Fs) (p : Text) (f : File) : Fs := fs.delete p ++ [(p, f)]

/-- `FileIO::SetFileLastWriteTimeToNow`, where it succeeds. -/
def Fs.touch (fs : Fs) (p : Text) (now : Int) : Fs :=
  fs.map fun e => if e.1 == p then (e.1, { e.2 with time := now }) else e

/-- What follows a directory in a path. -/
def under : Text → Text → Option Text
  | [], p => some p
  | _ :: _, [] => none
  | a :: d, b :: p => if a = b then under d p else none

/-- `FileIO::GetFiles( root, "*", false, … )`: the paths of the files of a directory. -/
def Fs.files (pl : Plat) (fs : Fs) (root : Text) : List Text :=
  (fs.map (·.1)).filter fun p =>
    match under root p with
    | none => false
    | some name => !name.isEmpty && !name.contains pl.slash

/-! ### The client -/

/-- What follows the last slash (C:86-87). -/
def lastPart (pl : Plat) (p : Text) : Text := (p.reverse.takeWhile (· != pl.slash)).reverse

/-- `WorkerBrokerageClient::FindWorkers` (C:28-97). -/
def findWorkers (pl : Plat) (workers paths : Option Text) (locals : List Text) (fs : Fs) :
    List Text :=
  let given := match workers with
    | none => []
    | some s => Verif.Str.tokenize ';' s
  if given.isEmpty then
    let results := (initBrokerage pl paths).flatMap (Fs.files pl fs)
    (results.map (lastPart pl)).filter fun w => !locals.contains w
  else given

/-! ### The worker -/

/-- What the file of a worker says besides its names (S:128-171). -/
structure Told where
  version : Text
  user : Text
  cpus : Text
  processors : Text
  details : Text
  memory : Text
  mode : Text
  deriving DecidableEq

/-- The text of the file (S:130-171). -/
def note (host domain ip : Text) (t : Told) : Text :=
  "Version: ".toList ++ t.version ++ ['\n'] ++
  "User: ".toList ++ t.user ++ ['\n'] ++
  "Host Name: ".toList ++ host ++ ['\n'] ++
  (if domain.isEmpty then [] else
    "Domain Name: ".toList ++ domain ++ ['\n'] ++
    "FQDN: ".toList ++ host ++ ['.'] ++ domain ++ ['\n']) ++
  "IPv4 Address: ".toList ++ ip ++ ['\n'] ++
  "CPUs: ".toList ++ t.cpus ++ ['/'] ++ t.processors ++ ['\n'] ++
  "CPUDetails: ".toList ++ t.details ++ ['\n'] ++
  "Memory: ".toList ++ t.memory ++ ['\n'] ++
  "Mode: ".toList ++ t.mode ++ ['\n']

/-- What a call finds: the time of the timers and of the files, the names of the machine
(`ip` is none where resolving fails or gives the loopback address, S:90-94), the settings, and
what the file system lets the worker do. -/
structure Env where
  now : Int
  wall : Int
  host : Text
  domain : Text
  ip : Option Text
  settingsTime : Nat
  told : Told
  /-- whether a file that is there can be deleted -/
  deletes : Text → Bool
  /-- whether the time of a file that is there can be set -/
  touches : Bool
  /-- whether a file can be opened for writing -/
  opens : Bool

/-- The members of `WorkerBrokerageServer` (WorkerBrokerageServer.h) and the directories of
`WorkerBrokerage`. -/
structure Server where
  roots : List Text
  lastUpdate : Int
  lastIP : Int
  lastClean : Int
  settingsTime : Nat
  available : Bool
  path : Text
  ip : Text
  domain : Text
  host : Text
  deriving DecidableEq

def cleanEvery : Int := 12 * 60 * 60 * 1000   -- S:25
def cleanOlder : Int := 24 * 60 * 60          -- S:26, in seconds
def updateEvery : Int := 10 * 1000            -- S:27
def ipEvery : Int := 5 * 60 * 1000            -- S:28

/-- The constructor (S:32-36): timers start when they are made (Timer.h), the one of cleaning as
if that had been long ago. -/
def Server.start (roots : List Text) (now : Int) : Server :=
  { roots := roots, lastUpdate := now, lastIP := now, lastClean := now - cleanEvery,
    settingsTime := 0, available := false, path := [], ip := [], domain := [], host := [] }

/-- `FileIO::FileDelete` -/
def deleteFile (e : Env) (fs : Fs) (p : Text) : Fs := if e.deletes p then fs.delete p else fs

/-- `UpdateBrokerageFilePath` (S:231-244). -/
def Server.updatePath (s : Server) : Server :=
  match s.roots with
  | [] => s
  | root :: _ => { s with path := root ++ (if s.ip.isEmpty then s.host else s.ip) }

/-- Asking for the names of the machine again (S:76-114).  The boolean is `createBrokerageFile`. -/
def renew (e : Env) (s : Server) (fs : Fs) (create : Bool) : Server × Fs × Bool :=
  if s.host.isEmpty || s.ip.isEmpty || decide (ipEvery ≤ e.now - s.lastIP) then
    let ip := e.ip.getD []
    if e.host ≠ s.host ∨ e.domain ≠ s.domain ∨ ip ≠ s.ip then
      let fs := deleteFile e fs s.path
      let s := { s with host := e.host, domain := e.domain, ip := ip }.updatePath
      ({ s with lastIP := e.now }, fs, true)
    else ({ s with lastIP := e.now }, fs, create)
  else (s, fs, create)

/-- Setting the time of the file, or writing it (S:116-183). -/
def refresh (e : Env) (s : Server) (fs : Fs) (create : Bool) : Server × Fs :=
  let touched := !create && e.touches && (fs.find s.path).isSome
  if touched then (s, fs.touch s.path e.wall)
  else if e.opens then
    ({ s with settingsTime := e.settingsTime },
      fs.write s.path ⟨note s.host s.domain s.ip e.told, e.wall⟩)
  else (s, fs)

/-- Being available (S:64-187). -/
def announce (e : Env) (s : Server) (fs : Fs) : Server × Fs :=
  if updateEvery ≤ e.now - s.lastUpdate then
    let create := decide (s.settingsTime < e.settingsTime)
    let (s, fs, create) := renew e s fs create
    let (s, fs) := refresh e s fs create
    ({ s with lastUpdate := e.now }, fs)
  else (s, fs)

/-- Whether a file is too old (S:216-217); file times are counted in whole seconds. -/
def tooOld (wall : Int) (f : File) : Bool :=
  decide (wall / 1000 > f.time / 1000) && decide (wall / 1000 - f.time / 1000 > cleanOlder)

/-- Deleting what is too old (S:202-222). -/
def cleanFiles (pl : Plat) (e : Env) (root : Text) (fs : Fs) : Fs :=
  (fs.files pl root).foldl (init := fs) fun fs p =>
    match fs.find p with
    | none => fs
    | some f => if tooOld e.wall f then deleteFile e fs p else fs

/-- Cleaning (S:199-226). -/
def clean (pl : Plat) (e : Env) (s : Server) (fs : Fs) : Server × Fs :=
  match s.roots with
  | [] => (s, fs)
  | root :: _ =>
      if cleanEvery ≤ e.now - s.lastClean then
        ({ s with lastClean := e.now }, cleanFiles pl e root fs)
      else (s, fs)

/-- `SetAvailability` (S:51-227). -/
def setAvailability (pl : Plat) (e : Env) (available : Bool) (s : Server) (fs : Fs) :
    Server × Fs :=
  if s.roots.isEmpty then (s, fs)
  else
    let s := s.updatePath
    let (s, fs) :=
      if available then announce e s fs
      else if s.available then ({ s with lastUpdate := e.now }, deleteFile e fs s.path)
      else (s, fs)
    clean pl e { s with available := available } fs

/-- The destructor (S:40-47). -/
def Server.stop (e : Env) (s : Server) (fs : Fs) : Fs :=
  if s.available then deleteFile e fs s.path else fs

end Verif.Broker
