import Verif.Spec.Url
import Verif.Spec.EnvelopeFormat

/-! # Specification: what an Oauth2 server reads in a request for a token -/

namespace LogCache.Spec

/-- The form has just these parameters. -/
def FormSays (body : List UInt8) (q : Values) : Prop :=
  ∃ q', textValues (parseQuery body) = some q' ∧ SameParams q' q

/-- An Authorization header with a user and a password as RFC 7617 has it: in base64, and the
user ends at the first colon. -/
def BasicLogin (header user password : Str) : Prop :=
  ∃ t, header = "Basic ".toList ++ t ∧ IsBase64 (utf8Bytes (user ++ ':' :: password)) t ∧ ':' ∉ user

end LogCache.Spec
