/-
`find_runtime_dir` (/repo/grayc/src/main.c 205-259).

Simplifications.
* `access` with `R_OK` is a predicate on names that does not change during the search; links and `..` are part of it.
* The results of `getenv`, `get_self_dir` and `getcwd` are given; a missing one is `none`.
* Names are not cut at `PATH_BUF_SIZE`.
-/
namespace Verif.RuntimeDir

abbrev Path := List Char

/-- The text before the last `/` (`strrchr`) -/
def beforeSlash (s : Path) : Option Path :=
  match s.reverse.dropWhile (· != '/') with
  | [] => none
  | _ :: r => some r.reverse

theorem beforeSlash_length {s d : Path} (h : beforeSlash s = some d) : d.length < s.length := by
  unfold beforeSlash at h
  split at h
  · cases h
  · next c r e =>
    have h1 : (s.reverse.dropWhile (· != '/')).length ≤ s.reverse.length := (List.dropWhile_sublist _).length_le
    rw [e, List.length_cons, List.length_reverse] at h1
    rw [← Option.some.inj h, List.length_reverse]
    omega

/-- Lines 239-249 -/
def walk (readable : Path → Bool) (dir : Path) : Option Path :=
  if dir = [] then none
  else if readable (dir ++ "/grayc/src/runtime/runtime.h".toList) then some (dir ++ "/grayc/src".toList)
  else match _h : beforeSlash dir with
    | none => none
    | some [] => none
    | some (c :: d) => walk readable (c :: d)
termination_by dir.length
decreasing_by exact beforeSlash_length _h

structure World where
  readable : Path → Bool
  /-- `GRAY_RUNTIME` -/
  env : Option Path
  self : Option Path
  cwd : Option Path

/-- Lines 209-213 -/
def fromEnv (w : World) : Option Path :=
  w.env.filter fun e => w.readable e && w.readable (e ++ "/runtime/runtime.h".toList)

/-- Lines 216-231 -/
def fromSelf (w : World) : Option Path :=
  match w.self with
  | none => none
  | some d =>
    if w.readable (d ++ "/../lib/grayc/runtime/runtime.h".toList) then some (d ++ "/../lib/grayc".toList)
    else if w.readable (d ++ "/src/runtime/runtime.h".toList) then some (d ++ "/src".toList)
    else none

def runtimeDir (w : World) : Option Path :=
  match fromEnv w with
  | some e => some e
  | none =>
    match fromSelf w with
    | some p => some p
    | none =>
      match w.cwd.bind (walk w.readable) with
      | some p => some p
      | none => if w.readable "/usr/local/lib/grayc/runtime/runtime.h".toList then some "/usr/local/lib/grayc".toList else none

end Verif.RuntimeDir
