import Verif.Model.Client
import Verif.Spec.Num

/-! # What a semantic version is (semver.org) -/

namespace LogCache.Spec

/-- Words with dots between them. -/
def dotted : List Str → Str
  | [] => []
  | [w] => w
  | w :: ws => w ++ '.' :: dotted ws

/-- ASCII letters, digits and hyphens, at least one. -/
def VersionWord (w : Str) : Prop :=
  w ≠ [] ∧ ∀ c ∈ w, ('a' ≤ c ∧ c ≤ 'z') ∨ ('A' ≤ c ∧ c ≤ 'Z') ∨ ('0' ≤ c ∧ c ≤ '9') ∨ c = '-'

/-- A word of a pre-release: a number in its usual notation, or a word that is not all
digits. -/
def PreReleaseWord (w : Str) : Prop :=
  (∃ n, n < 2 ^ 64 ∧ w = dec n) ∨ VersionWord w ∧ ∃ c ∈ w, ¬('0' ≤ c ∧ c ≤ '9')

/-- `s` is the version `v`: three numbers of 64 bits in their usual notation with dots between
them, then perhaps a hyphen and the words of the pre-release, then perhaps a plus sign and
the words of the build. -/
def IsVersion (s : Str) (v : Semver) : Prop :=
  v.major < 2 ^ 64 ∧ v.minor < 2 ^ 64 ∧ v.patch < 2 ^ 64 ∧
  ∃ pre build : List Str, (∀ w ∈ pre, PreReleaseWord w) ∧ (∀ w ∈ build, VersionWord w) ∧
    (v.pre = true ↔ pre ≠ []) ∧
    s = dec v.major ++ '.' :: (dec v.minor ++ '.' :: (dec v.patch ++
      ((if pre = [] then [] else '-' :: dotted pre) ++ (if build = [] then [] else '+' :: dotted build))))

end LogCache.Spec
