import Verif.Model.Client
import Verif.Model.Promql
import Verif.Model.Float
/-!
# Versions: `semver.Parse` of `github.com/blang/semver`

What `/repo/pkg/client/client.go:345` makes of the version a gateway reports.  The library
is a dependency and not in `/repo`; this is what its version 3 does.
-/
namespace LogCache

/-- The text before and after the first `c` (`strings.SplitN`, `strings.IndexRune`).
Library code, reached from `client.go:345`. -/
def semverCut (c : Char) : Str → Option (Str × Str)
  | [] => none
  | x :: s => if x = c then some ([], s) else (semverCut c s).map fun p => (x :: p.1, p.2)

/-- A number: `containsOnly`, `hasLeadingZeroes` and `strconv.ParseUint`, which accepts digits
only.  Library code, reached from `client.go:345`. -/
def semverNumber (s : Str) : Option Nat :=
  match s with
  | '0' :: _ :: _ => none
  | s => parseUint64 s

/-- The characters of `alphanum`. Library code, reached from `client.go:345`. -/
def semverChar (c : Char) : Bool :=
  ('a' ≤ c && c ≤ 'z') || ('A' ≤ c && c ≤ 'Z') || isDecimal c || c = '-'

/-- `NewPRVersion` succeeds; no text is no number. Library code, reached from `client.go:345`. -/
def semverPre (w : Str) : Bool :=
  if w.all isDecimal then (semverNumber w).isSome else w.all semverChar

/-- A part of the build information is accepted. Library code, reached from `client.go:345`. -/
def semverBuild (w : Str) : Bool := !w.isEmpty && w.all semverChar

/-- The text before the first `c` and the parts after it between dots.
Library code, reached from `client.go:345`. -/
def semverTail (c : Char) (s : Str) : Str × List Str :=
  match semverCut c s with
  | some (s, w) => (s, splitOn '.' w)
  | none => (s, [])

/-- `semver.Parse`. Library code, reached from `client.go:345`.  Simplification: of the
pre-release part only whether there is one is kept, and nothing of the build information;
`GTE` with 2.0.0 does not depend on the rest. -/
def semverParse (s : Str) : Option Semver :=
  match semverCut '.' s with
  | none => none
  | some (a, s) =>
    match semverCut '.' s with
    | none => none
    | some (b, s) =>
      match semverNumber a, semverNumber b, semverNumber (semverTail '-' (semverTail '+' s).1).1 with
      | some a, some b, some c =>
        if (semverTail '-' (semverTail '+' s).1).2.all semverPre && (semverTail '+' s).2.all semverBuild then
          some ⟨a, b, c, !(semverTail '-' (semverTail '+' s).1).2.isEmpty⟩
        else none
      | _, _, _ => none

end LogCache
