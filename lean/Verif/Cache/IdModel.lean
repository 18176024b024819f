/-
Model of the names of cache entries.

Sources (relative to /repo/Code/Tools/FBuild/FBuildCore/Cache):
  ICache.cpp  GetCacheId (12)
  Cache.cpp   GetFullPathForCacheEntry (373), GetCacheFiles (312), Publish (95: the temporary name)
-/
namespace Verif.Cache

/-- Upper case hexadecimal digit (`%X`). -/
def hexDigit : Nat → Char
  | 0 => '0' | 1 => '1' | 2 => '2' | 3 => '3' | 4 => '4' | 5 => '5' | 6 => '6' | 7 => '7'
  | 8 => '8' | 9 => '9' | 10 => 'A' | 11 => 'B' | 12 => 'C' | 13 => 'D' | 14 => 'E' | _ => 'F'

/-- `%0<w>X` for a number of at most `w` digits. -/
def hexPad : Nat → Nat → List Char
  | 0, _ => []
  | w + 1, n => hexPad w (n / 16) ++ [hexDigit (n % 16)]

/-- `ICache::GetCacheId`, ICache.cpp:12-29. -/
def cacheId (source : BitVec 64) (commandLine : BitVec 32) (toolChain pch : BitVec 64) : List Char :=
  hexPad 16 source.toNat ++ '_' :: (hexPad 8 commandLine.toNat ++ '_' :: (hexPad 16 toolChain.toNat ++ '-' ::
    (hexPad 16 pch.toNat ++ ['.', 'I'])))

/-- `Cache::GetFullPathForCacheEntry`, Cache.cpp:373-386; `root` is `m_CachePath`. An identifier of fewer than
four characters would be read past its end: `none`. -/
def fullPath (root id : List Char) : Option (List Char) :=
  match id with
  | a :: b :: c :: d :: _ => some (root ++ a :: b :: '/' :: c :: d :: '/' :: id)
  | _ => none

/-- The name of the temporary file, Cache.cpp:105-106. -/
def tmpPath (path : List Char) : List Char := path ++ ['.', 't', 'm', 'p']

/-- A directory visited by `Cache::GetCacheFiles`, Cache.cpp:330-336. -/
def scanDir (root : List Char) (i j : Nat) : List Char :=
  root ++ hexPad 2 i ++ '/' :: (hexPad 2 j ++ ['/'])

end Verif.Cache
