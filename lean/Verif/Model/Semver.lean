import Verif.Model.Str
import Verif.Model.Strconv

/-
Versions and the choice of an update: /repo/cli/update.go (Go).

Simplifications.
* Strings are byte lists. `fmt.Sscanf(s, "%d", &n)` skips the ASCII blanks (Go also skips the other
  Unicode blanks), fails at a newline, reads an optional sign and decimal digits and leaves `n`
  unchanged if there are none or the number does not fit an `int` (64 bits); the rest is ignored.
* A release is its tag and its prerelease flag; printing, the network and the confirmation dialogue
  are dropped.
* The loop of comparePreIdentifiers over the common length followed by the comparison of the lengths
  is one recursion over both lists.
-/
namespace Verif.Semver
open Verif Verif.Str Verif.Strconv

/-- The blanks skipped by `Sscanf`; none at a newline. -/
def scanSpace : Str → Option Str
  | [] => some []
  | c :: r =>
    if c = 10 then none
    else if c = 32 ∨ c = 9 ∨ c = 11 ∨ c = 12 ∨ c = 13 then scanSpace r
    else some (c :: r)

/-- `fmt.Sscanf(s, "%d", &n)`: the number, or none on failure. -/
def scanInt (s : Str) : Option Int :=
  match scanSpace s with
  | none => none
  | some t =>
    let (neg, u) := sign t
    match u with
    | [] => none
    | c :: r =>
      if isDigit c then
        let n := (digitsLoop 10 (c :: r) 0).1
        let v : Int := if neg then -(n : Int) else n
        if -2 ^ 63 ≤ v ∧ v < 2 ^ 63 then some v else none
      else none

/-- `strings.TrimPrefix(v, "v")`. -/
def trimV : Str → Str
  | [] => []
  | c :: r => if c = ch 'v' then r else c :: r

/-- The part before the first `c` (`v[:strings.Index(v, c)]`, or all of it). -/
def before (c : Byte) : Str → Str
  | [] => []
  | x :: r => if x = c then [] else x :: before c r

/-- The part after the first `c`, if there is one. -/
def after (c : Byte) : Str → Option Str
  | [] => none
  | x :: r => if x = c then some r else after c r

/-- `strings.Split(s, c)` for a one-byte separator. -/
def splitOn (c : Byte) : Str → List Str
  | [] => [[]]
  | x :: r =>
    if x = c then [] :: splitOn c r
    else match splitOn c r with
      | [] => [[x]]
      | p :: ps => (x :: p) :: ps

/-- The longest prefix of bytes satisfying `p` is dropped. -/
def skip (p : Byte → Bool) : Str → Str
  | [] => []
  | c :: r => if p c then skip p r else c :: r

/-- `[0-9a-f]`. -/
def isLowHex (c : Byte) : Bool := isDigit c || between 97 c 102

/-- `[0-9a-f]+(-dirty)?$`. -/
def matchHash : Str → Bool
  | [] => false
  | c :: r => isLowHex c && (let t := skip isLowHex r; t == [] || t == lit "-dirty")

/-- `\d+-g[0-9a-f]+(-dirty)?$`. -/
def matchCount : Str → Bool
  | [] => false
  | c :: r =>
    isDigit c && (match skip isDigit r with
      | d :: g :: t => d == ch '-' && g == ch 'g' && matchHash t
      | _ => false)

/-- `gitDescribeRE.ReplaceAllString(s, "")` (update.go:142): the match reaches to the end, so there
is at most one. -/
def stripDescribe : Str → Str
  | [] => []
  | c :: r => if c == ch '-' && matchCount r then [] else c :: stripDescribe r

/-- A parsed version. -/
structure Parsed where
  major : Int
  minor : Int
  patch : Int
  pre : Str
  deriving DecidableEq

/-- The number of the `i`-th part, 0 if absent or unreadable. -/
def part (ps : List Str) (i : Nat) : Int :=
  match ps[i]? with
  | none => 0
  | some p => (scanInt p).getD 0

/-- `parseSemver` (update.go:186-210). -/
def parseSemver (v : Str) : Parsed :=
  let v := before (ch '+') (trimV v)
  let pre := match after (ch '-') v with
    | none => []
    | some p => stripDescribe p
  let parts := splitOn (ch '.') (before (ch '-') v)
  ⟨part parts 0, part parts 1, part parts 2, pre⟩

/-- `fmt.Sprint(n)`. -/
def sprint (n : Int) : Str := fromInt n

/-- `an == 1 && fmt.Sprint(ai) == as[i]`: the value of a numeric identifier. -/
def numIdent (s : Str) : Option Int :=
  match scanInt s with
  | none => none
  | some n => if sprint n = s then some n else none

/-- `a < b` for Go strings: bytewise. -/
def strLt : Str → Str → Bool
  | _, [] => false
  | [], _ :: _ => true
  | a :: as, b :: bs => if a.toNat < b.toNat then true else if b.toNat < a.toNat then false else strLt as bs

/-- The body of the loop of comparePreIdentifiers (update.go:223-247). -/
def cmpIdent (a b : Str) : Int :=
  match numIdent a, numIdent b with
  | some x, some y => if x ≠ y then (if x < y then -1 else 1) else 0
  | some _, none => -1
  | none, some _ => 1
  | none, none => if a ≠ b then (if strLt a b then -1 else 1) else 0

/-- The loop and the comparison of the lengths (update.go:222-256). -/
def cmpIdents : List Str → List Str → Int
  | [], [] => 0
  | [], _ :: _ => -1
  | _ :: _, [] => 1
  | a :: as, b :: bs => if cmpIdent a b ≠ 0 then cmpIdent a b else cmpIdents as bs

/-- `comparePreIdentifiers` (update.go:215-257). -/
def comparePre (a b : Str) : Int := cmpIdents (splitOn (ch '.') a) (splitOn (ch '.') b)

/-- `if x != y { if x < y { return -1 }; return 1 }`. -/
def cmpInt (x y : Int) : Int := if x ≠ y then (if x < y then -1 else 1) else 0

/-- Comparison of parsed versions (update.go:266-294). -/
def compareParsed (a b : Parsed) : Int :=
  if cmpInt a.major b.major ≠ 0 then cmpInt a.major b.major
  else if cmpInt a.minor b.minor ≠ 0 then cmpInt a.minor b.minor
  else if cmpInt a.patch b.patch ≠ 0 then cmpInt a.patch b.patch
  else if a.pre = [] ∧ b.pre = [] then 0
  else if a.pre = [] then 1
  else if b.pre = [] then -1
  else comparePre a.pre b.pre

/-- `compareSemver` (update.go:263-295). -/
def compareSemver (a b : Str) : Int := compareParsed (parseSemver a) (parseSemver b)

/-- `isNewerVersion` (update.go:299-301). -/
def isNewer (localV remote : Str) : Bool := decide (0 < compareSemver remote localV)

/-- `isVersionInRange` (update.go:305-315). -/
def inRange (v fromV toV : Str) : Bool := if !isNewer fromV v then false else !isNewer toV v

/-- A release. -/
structure Release where
  tag : Str
  prerelease : Bool
  deriving DecidableEq

/-- The loop of pickLatestPrerelease and pickLatestStable (update.go:378-390, 623-635). -/
def pickLoop (pre : Bool) : List Release → Option Release → Option Release
  | [], best => best
  | r :: rs, best =>
    if r.prerelease ≠ pre then pickLoop pre rs best
    else match best with
      | none => pickLoop pre rs (some r)
      | some b => if 0 < compareSemver r.tag b.tag then pickLoop pre rs (some r)
                  else pickLoop pre rs (some b)

def pickLatest (pre : Bool) (rs : List Release) : Option Release := pickLoop pre rs none

/-- `getReleasesInRange` (update.go:393-401). -/
def releasesInRange (rs : List Release) (cur latest : Str) : List Release :=
  rs.filter fun r => inRange r.tag cur latest

/-- The channel of the running version (GetVersionInfo, update.go:159-178). -/
inductive Channel where
  | dev | pre | stable
  deriving DecidableEq

/-- `gitDescribeCaptureRE.FindStringSubmatch(Version) != nil`; the captured hash is not empty. -/
def describes : Str → Bool
  | [] => false
  | c :: r => (c == ch '-' && matchCount r) || describes r

def channel (version : Str) : Channel :=
  let display := stripDescribe version
  if version = lit "dev" then .dev
  else if describes version then .dev
  else if (parseSemver display).pre ≠ [] then .pre
  else .stable

/-- The release that `gray update` offers to install, if any (runUpdate, update.go:688-757). -/
def updateTarget (rs : List Release) (version : Str) (pre : Bool) : Option Release :=
  if channel version = .pre ∧ !pre then none
  else match pickLatest pre rs with
    | none => none
    | some t => if 0 < compareSemver t.tag version then some t else none

end Verif.Semver
