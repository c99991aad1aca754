import Verif.Model.Door
import Verif.Spec.Promql
/-! # Vocabulary for the way of a request through proxy and gateway -/
namespace LogCache.Spec

/-- Decoding the character references an HTML-escaped text contains. -/
def htmlDecode : Str → Str
  | '&' :: '#' :: '3' :: '4' :: ';' :: s => '"' :: htmlDecode s
  | '&' :: '#' :: '3' :: '9' :: ';' :: s => '\'' :: htmlDecode s
  | '&' :: '#' :: '4' :: '3' :: ';' :: s => '+' :: htmlDecode s
  | '&' :: 'a' :: 'm' :: 'p' :: ';' :: s => '&' :: htmlDecode s
  | '&' :: 'l' :: 't' :: ';' :: s => '<' :: htmlDecode s
  | '&' :: 'g' :: 't' :: ';' :: s => '>' :: htmlDecode s
  | c :: s => c :: htmlDecode s
  | [] => []

/-- The text consists of these lines, each ended by a line feed. -/
def HasLines (text : Str) (lines : List Str) : Prop :=
  text = lines.flatMap (fun l => l ++ ['\n']) ∧ ∀ l ∈ lines, '\n' ∉ l

/-- None of the texts a client sends contains the character. -/
def FreeOf (c : Char) (r : WebReq) : Prop :=
  c ∉ r.method ∧ c ∉ r.path ∧ c ∉ r.rawQuery ∧ c ∉ r.requestId ∧ c ∉ r.forwardedFor ∧ c ∉ r.remoteAddr

/-- A host or port as it is written without brackets. -/
def Plain (s : Str) : Prop := ':' ∉ s ∧ '[' ∉ s ∧ ']' ∉ s ∧ ',' ∉ s

/-- The user of a request may read a source: the token names an administrator or a
user for whom the source is authorized. -/
def MayRead (oauth : Str → Option UserCtx) (auth : Str → Str → Bool) (token id : Str) : Prop :=
  token ≠ [] ∧ ∃ c, oauth token = some c ∧ (c.isAdmin = true ∨ auth id c.token = true)

/-- A source id whose path is not rewritten by HTTP routers: none of its segments is `.` or
`..`, and none but the last one is empty. -/
def CleanId (id : Str) : Prop :=
  (∀ bad ∈ ["//", "/./", "/../"], ¬ bad.toList <:+: '/' :: id) ∧ ∀ bad ∈ ["/.", "/.."], ¬ bad.toList <:+ '/' :: id

end LogCache.Spec
