import Mathlib.Data.List.Forall2
import Verif.Spec.JsonGrammar
import Verif.Spec.Num
import Verif.Model.Auth

/-! # What the documents of CAPI and UAA and the contents of tokens say

Nothing here refers to how they are read. -/

namespace LogCache.Spec

/-- A letter without its case.  The long s and the Kelvin sign are taken for s and k. -/
def Uncased (c d : Char) : Prop :=
  c = d ∨ ('A' ≤ c ∧ c ≤ 'Z' ∧ d.toNat = c.toNat + 32) ∨ (c.toNat = 0x17F ∧ d = 's') ∨ (c.toNat = 0x212A ∧ d = 'k')

/-- `name` is the lower case name `k`, in whatever case. -/
def Named (k : String) (name : Str) : Prop := List.Forall₂ Uncased name k.toList

/-- The only field of the object that goes by the name. -/
def OnlyField (fs : List (Str × Json)) (k : String) (v : Json) : Prop :=
  ∃ before name after, fs = before ++ (name, v) :: after ∧ Named k name ∧
    ∀ p ∈ before ++ after, ¬ Named k p.1

/-- No field of the object goes by the name, or the only one is `null`. -/
def Lacks (fs : List (Str × Json)) (k : String) : Prop :=
  (∀ p ∈ fs, ¬ Named k p.1) ∨ OnlyField fs k .null

/-- The text under a name; empty if there is none. -/
def HasText (fs : List (Str × Json)) (k : String) (x : Str) : Prop :=
  OnlyField fs k (.str x) ∨ x = [] ∧ Lacks fs k

/-- One resource. -/
def SaysResource (j : Json) (r : Resource) : Prop :=
  ∃ fs, j = .obj fs ∧ HasText fs "guid" r.guid ∧ HasText fs "name" r.name

/-- The address of the next page: `pagination.next.href`. -/
def SaysNext (fs : List (Str × Json)) (href : Str) : Prop :=
  (∃ ps ns, OnlyField fs "pagination" (.obj ps) ∧ OnlyField ps "next" (.obj ns) ∧ HasText ns "href" href) ∨
  (∃ ps, OnlyField fs "pagination" (.obj ps) ∧ Lacks ps "next" ∧ href = []) ∨
  (Lacks fs "pagination" ∧ href = [])

/-- `t` is the text of a page with these resources and this address of the next page.  Other
fields may be anything. -/
def SaysPage (t : Str) (rs : List Resource) (href : Str) : Prop :=
  ∃ fs, JsonDoc (.obj fs) t ∧ SaysNext fs href ∧
    ((∃ xs, OnlyField fs "resources" (.arr xs) ∧ List.Forall₂ SaysResource xs rs) ∨ rs = [] ∧ Lacks fs "resources")

/-- One key of UAA: its id and its text. -/
def SaysKey (j : Json) (k : Str × Str) : Prop :=
  ∃ fs, j = .obj fs ∧ HasText fs "kid" k.1 ∧ HasText fs "value" k.2

/-- `t` is the text of a document with these keys. -/
def SaysKeys (t : Str) (ks : List (Str × Str)) : Prop :=
  ∃ fs, JsonDoc (.obj fs) t ∧
    ((∃ xs, OnlyField fs "keys" (.arr xs) ∧ List.Forall₂ SaysKey xs ks) ∨ ks = [] ∧ Lacks fs "keys")

/-- A number in digits, or with a decimal point, of at most 15 digits: its whole part. -/
def Seconds (t : Str) (n : Nat) : Prop :=
  ∃ ip fp m, (t = ip ∧ fp = [] ∨ t = ip ++ '.' :: fp) ∧ Numeral (ip ++ fp) m ∧ (ip ++ fp).length ≤ 15 ∧
    n = m / 10 ^ fp.length

/-- `t` is the text of a token for these scopes that expires `n` seconds after 1970. -/
def SaysToken (t : Str) (scopes : List Str) (n : Nat) : Prop :=
  ∃ fs, JsonDoc (.obj fs) t ∧ (∃ x, HasText fs "value" x) ∧
    (OnlyField fs "scope" (.arr (scopes.map .str)) ∨ scopes = [] ∧ Lacks fs "scope") ∧
    ((∃ s, OnlyField fs "exp" (.num s) ∧ Seconds s n) ∨ n = 0 ∧ Lacks fs "exp")

/-- Among the fields of the object there is one of that name with that value. -/
def SomeField (fs : List (Str × Json)) (k : String) (v : Json) : Prop := ∃ p ∈ fs, Named k p.1 ∧ p.2 = v

/-- The text begins with an object with these fields. -/
def BeginsObject (t : Str) (fs : List (Str × Json)) : Prop :=
  ∃ b v r, t = b ++ (v ++ r) ∧ Blank b ∧ JText (.obj fs) v

/-- The text lists the resource id `x`. -/
def ListsId (t : Str) (x : Str) : Prop :=
  ∃ fs xs gs, BeginsObject t fs ∧ SomeField fs "resources" (.arr xs) ∧ .obj gs ∈ xs ∧ SomeField gs "guid" (.str x)

/-- The text names the scope `x`. -/
def NamesScope (t : Str) (x : Str) : Prop :=
  ∃ fs xs, BeginsObject t fs ∧ SomeField fs "scope" (.arr xs) ∧ .str x ∈ xs

/-- The text offers the key `v` under the id `kid`. -/
def OffersKey (t : Str) (kid v : Str) : Prop :=
  ∃ fs xs gs, BeginsObject t fs ∧ SomeField fs "keys" (.arr xs) ∧ .obj gs ∈ xs ∧ SomeField gs "value" (.str v) ∧
    (SomeField gs "kid" (.str kid) ∨ kid = [])

end LogCache.Spec
