import Verif.Model.JsonText
import Verif.Spec.JsonNumber

/-! # JSON documents and their text -/

namespace LogCache.Spec

mutual
/-- The numbers of a tree are JSON numbers. -/
def JsonOk : Json → Prop
  | .num t => NumText t
  | .arr xs => ElemsOk xs
  | .obj fs => MembersOk fs
  | _ => True
def ElemsOk : List Json → Prop
  | [] => True
  | x :: xs => JsonOk x ∧ ElemsOk xs
def MembersOk : List (Str × Json) → Prop
  | [] => True
  | (_, v) :: fs => JsonOk v ∧ MembersOk fs
end

/-- White space of JSON. -/
def Blank (s : Str) : Prop := ∀ c ∈ s, c = ' ' ∨ c = '\t' ∨ c = '\r' ∨ c = '\n'

/-- Text that stands for itself between quotes. -/
def PlainText (s : Str) : Prop := ∀ c ∈ s, 32 ≤ c.toNat ∧ c ≠ '"' ∧ c ≠ '\\'

end LogCache.Spec
