import Verif.Model.Tls

/-!
# Specification: whom the commands talk to, and who may talk to them
-/

namespace LogCache.Spec

/-- The file the operator names for the authorities of this connection (the blackbox's
connection to the proxy has none). -/
def authorityFile (s : TlsSettings) : Outgoing → Option Str
  | .node => some s.node.caPath
  | .gateway => some s.proxyCAPath
  | .uaa => some s.uaaCAPath
  | .capi => some s.capiCAPath
  | .blackboxHttp => none

/-- The name the other side has to prove: a node is called "log-cache", CAPI has the name of
the settings, the others that of the address called. -/
def expectedName (s : TlsSettings) (host : Str) : Outgoing → Str
  | .node => "log-cache".toList
  | .capi => if s.capiCommonName = [] then host else s.capiCommonName
  | _ => host

/-- The operator switched verification off for this connection. -/
def verificationOff (s : TlsSettings) : Outgoing → Bool
  | .uaa => s.skipCertVerify
  | .capi => s.skipCertVerify
  | .blackboxHttp => s.skipTLSVerify
  | _ => false

/-- The other side proved to own `cert`: in date, for the name, and issued under one of the
authorities. -/
def Proved (w : TlsWorld) (authorities : List Nat) (name : Str) (p : TlsPeer) : Prop :=
  ∃ cert, p.cert = some cert ∧ p.hasKey = true ∧ w.inDate cert = true ∧ w.covers cert name = true ∧
    ∃ ca ∈ authorities, w.chains cert ca = true

/-- TLS 1.2 with one of the two ECDHE-RSA AES-GCM suites, or a later version. -/
def ModernTls (p : TlsPeer) : Prop :=
  (p.version = 0x0303 ∧ (p.suite = 0xc02f ∨ p.suite = 0xc030)) ∨ 0x0304 ≤ p.version

end LogCache.Spec
