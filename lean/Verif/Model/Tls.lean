import Verif.Model.Base

/-!
# The TLS connections of the commands

`internal/tls/tls.go`, the client set-up of `cmd/*/main.go`, `internal/cfauthproxy` and
`internal/blackbox`, and what `crypto/tls` (standard library, from recollection) makes of a
configuration in a handshake.  Simplified: certification authorities are numbers, a certificate
is a number whose meaning (which authorities it chains to, which names it covers, whether it is
in its period of validity) is given by the world; key exchange, ALPN, session resumption and
renegotiation are left out.
-/

namespace LogCache

/-- What the code finds outside itself: files, the meaning of certificates, the system.
Library code, reached from `internal/tls/tls.go:42-73`. -/
structure TlsWorld where
  /-- `tls.LoadX509KeyPair(cert, key)`, `internal/tls/tls.go:43`: the certificate, if both files
  are readable and belong together. -/
  keyPair : Str → Str → Option Nat
  /-- `ioutil.ReadFile`, then the certificates `AppendCertsFromPEM` finds
  (`internal/tls/tls.go:52-58`, `cmd/cf-auth-proxy/main.go:167-174`). -/
  caFile : Str → Option (List Nat)
  /-- The authorities the operating system trusts (for a configuration without `RootCAs`). -/
  systemCAs : List Nat
  /-- The certificate chains to the authority. -/
  chains : Nat → Nat → Bool
  /-- The certificate is valid for the name. -/
  covers : Nat → Str → Bool
  /-- The certificate is within its period of validity. -/
  inDate : Nat → Bool

/-- Versions of the protocol as in `crypto/tls`.
Library code, reached from `internal/tls/tls.go:42-73`. -/
def tls10 : Nat := 0x0301
/-- Library code, reached from `internal/tls/tls.go:42-73`. -/
def tls12 : Nat := 0x0303
/-- Library code, reached from `internal/tls/tls.go:42-73`. -/
def tls13 : Nat := 0x0304

/-- `tls.ClientAuthType`. Library code, reached from `internal/tls/tls.go:42-73`. -/
inductive ClientAuth where
  | noClientCert
  | requestClientCert
  | requireAnyClientCert
  | verifyClientCertIfGiven
  | requireAndVerifyClientCert
  deriving DecidableEq

/-- The fields of `tls.Config` that the code sets, and those that decide whom a server accepts.
The defaults are Go's zero values. Library code, reached from `internal/tls/tls.go:42-73`. -/
structure TlsConfig where
  certificates : List Nat := []
  rootCAs : Option (List Nat) := none
  serverName : Str := []
  skipVerify : Bool := false
  minVersion : Nat := 0
  cipherSuites : List Nat := []
  clientAuth : ClientAuth := .noClientCert
  clientCAs : Option (List Nat) := none

/-- `internal/tls/tls.go:75-78`: the code points of `TLS_ECDHE_RSA_WITH_AES_128_GCM_SHA256` and
`TLS_ECDHE_RSA_WITH_AES_256_GCM_SHA384`. -/
def supportedCipherSuites : List Nat := [0xc02f, 0xc030]

/-- `NewBaseTLSConfig`, `internal/tls/tls.go:67-73`. -/
def newBaseTLSConfig : TlsConfig :=
  { skipVerify := false, minVersion := tls12, cipherSuites := supportedCipherSuites }

/-- Reading authorities from a file: fails when the file is missing or holds no certificate
(`internal/tls/tls.go:52-60` and `loadCA`, `cmd/cf-auth-proxy/main.go:166-179`). -/
def loadCAs (w : TlsWorld) (path : Str) : Option (List Nat) :=
  match w.caFile path with
  | none => none
  | some [] => none
  | some (c :: cs) => some (c :: cs)

/-- `NewMutualTLSConfig`, `internal/tls/tls.go:42-65`. -/
def newMutualTLSConfig (w : TlsWorld) (caPath certPath keyPath cn : Str) : Option TlsConfig :=
  match w.keyPair certPath keyPath with
  | none => none
  | some cert =>
    let tlsConfig := { newBaseTLSConfig with serverName := cn, certificates := [cert] }
    match loadCAs w caPath with
    | none => none
    | some pool => some { tlsConfig with rootCAs := some pool }

/-- `TLS`, `internal/tls/tls.go:13-17`. -/
structure TlsPaths where
  caPath : Str
  certPath : Str
  keyPath : Str

/-- `TLS.Credentials`, `internal/tls/tls.go:19-40`; `none`: the command ends. -/
def TlsPaths.credentials (w : TlsWorld) (t : TlsPaths) (cn : Str) : Option TlsConfig :=
  newMutualTLSConfig w t.caPath t.certPath t.keyPath cn

/-- `buildUAAClient`, `cmd/cf-auth-proxy/main.go:129-145`. -/
def buildUAAClient (w : TlsWorld) (skipCertVerify : Bool) (caPath : Str) : Option TlsConfig :=
  let tlsConfig := { newBaseTLSConfig with skipVerify := skipCertVerify }
  match loadCAs w caPath with
  | none => none
  | some pool => some { tlsConfig with rootCAs := some pool }

/-- `buildCAPIClient`, `cmd/cf-auth-proxy/main.go:147-164`. -/
def buildCAPIClient (w : TlsWorld) (skipCertVerify : Bool) (commonName caPath : Str) :
    Option TlsConfig :=
  let tlsConfig := { newBaseTLSConfig with serverName := commonName }
  match loadCAs w caPath with
  | none => none
  | some pool => some { tlsConfig with rootCAs := some pool, skipVerify := skipCertVerify }

/-- `NewTransportWithRootCA`, `internal/cfauthproxy/cf_auth_proxy.go:119-137`, with the pool of
`cmd/cf-auth-proxy/main.go:71-79` (the reverse proxy and the client for `/api/v1/meta` use it). -/
def newTransportWithRootCA (w : TlsWorld) (proxyCAPath : Str) : Option TlsConfig :=
  match loadCAs w proxyCAPath with
  | none => none
  | some pool => some { rootCAs := some pool }

/-- `buildHttpClient`, `internal/blackbox/blackbox.go:71-84`: the default transport verifies with
the authorities of the system. -/
def buildHttpClient (skipTLSVerify : Bool) : TlsConfig :=
  if skipTLSVerify then { skipVerify := true } else {}

/-- The settings that decide the connections: of the commands that speak to nodes (`tls.TLS` of
`cmd/{log-cache,gateway,nozzle,syslog-server,scheduler,blackbox}/config.go`), of the proxy
(`cmd/cf-auth-proxy/config.go:9-37`) and of the blackbox (`cmd/blackbox/config.go:10-26`). -/
structure TlsSettings where
  /-- The paths for talking to nodes. -/
  node : TlsPaths
  proxyCAPath : Str
  uaaCAPath : Str
  capiCAPath : Str
  capiCommonName : Str
  skipCertVerify : Bool
  skipTLSVerify : Bool

/-- The outgoing connections of the commands.
Models `cmd/cf-auth-proxy/main.go:40-101` and the mains of the other commands. -/
inductive Outgoing where
  /-- A node, the gateway, the nozzle, the syslog server, the scheduler or the blackbox calls a
  node: `cmd/log-cache/main.go:54-60`, `cmd/gateway/main.go:28-30`, `cmd/nozzle/main.go:61-65`,
  `cmd/syslog-server/main.go:41-46`, `cmd/scheduler/main.go:33-35`,
  `cmd/blackbox/main.go:24-40`. -/
  | node
  /-- The proxy calls the gateway, `cmd/cf-auth-proxy/main.go:71-101`. -/
  | gateway
  /-- The proxy calls UAA, `cmd/cf-auth-proxy/main.go:40-45`. -/
  | uaa
  /-- The proxy calls CAPI, `cmd/cf-auth-proxy/main.go:62-69`. -/
  | capi
  /-- The blackbox calls the proxy and UAA, `cmd/blackbox/main.go:44-52`. -/
  | blackboxHttp
  deriving DecidableEq

/-- The configuration of an outgoing connection; `none`: the command ends when it starts.
Models `cmd/cf-auth-proxy/main.go:40-101` and the mains of the other commands. -/
def outgoingConfig (w : TlsWorld) (s : TlsSettings) : Outgoing → Option TlsConfig
  | .node => s.node.credentials w "log-cache".toList
  | .gateway => newTransportWithRootCA w s.proxyCAPath
  | .uaa => buildUAAClient w s.skipCertVerify s.uaaCAPath
  | .capi => buildCAPIClient w s.skipCertVerify s.capiCommonName s.capiCAPath
  | .blackboxHttp => some (buildHttpClient s.skipTLSVerify)

/-- The configuration of the listener of a node, `cmd/log-cache/main.go:61` (the same
credentials as for calls). -/
def nodeListener (w : TlsWorld) (s : TlsSettings) : Option TlsConfig :=
  s.node.credentials w "log-cache".toList

/-- The configuration of the listener of the proxy, `internal/cfauthproxy/cf_auth_proxy.go:94-104`
(`ServeTLS` adds the certificate of the two files). -/
def proxyListener (w : TlsWorld) (certPath keyPath : Str) : Option TlsConfig :=
  match w.keyPair certPath keyPath with
  | none => none
  | some c => some { newBaseTLSConfig with certificates := [c] }

/-- The configuration of the listener of the gateway, `internal/gateway/gateway.go:156-159`. -/
def gatewayListener (w : TlsWorld) (certPath keyPath : Str) : Option TlsConfig :=
  match w.keyPair certPath keyPath with
  | none => none
  | some c => some { certificates := [c] }

/-- `Server.buildTLSConfig`, `internal/syslog/server.go:302-312`: the certificate of the two files
and `tlsconfig.WithInternalServiceDefaults` (library `code.cloudfoundry.org/tlsconfig`, from
recollection: TLS 1.2 and the same two suites; its order of curves is left out). `none`: the
command ends. -/
def syslogListener (w : TlsWorld) (certPath keyPath : Str) : Option TlsConfig :=
  match w.keyPair certPath keyPath with
  | none => none
  | some c => some { minVersion := tls12, cipherSuites := [0xc02f, 0xc030], certificates := [c] }

/-- The other side of a handshake: the certificate it shows, whether it can sign with the key
of that certificate, and the version and suite that both sides speak and would agree upon.
Library code, reached from `internal/tls/tls.go:42-73`. -/
structure TlsPeer where
  cert : Option Nat
  hasKey : Bool
  version : Nat
  suite : Nat

/-- `crypto/tls`: the lowest version for a configuration (of the Go releases of that time).
Library code, reached from `internal/tls/tls.go:42-73`. -/
def TlsConfig.lowest (c : TlsConfig) : Nat := if c.minVersion = 0 then tls10 else c.minVersion

/-- `crypto/tls`: version and suite are acceptable.  Below TLS 1.3 the suite has to be one of
the configured ones, if there are any. Library code, reached from `internal/tls/tls.go:42-73`. -/
def TlsConfig.speaks (c : TlsConfig) (p : TlsPeer) : Bool :=
  decide (c.lowest ≤ p.version) &&
    (decide (tls13 ≤ p.version) || c.cipherSuites.isEmpty || c.cipherSuites.contains p.suite)

/-- `x509.Certificate.Verify`. Library code, reached from `internal/tls/tls.go:42-73`. -/
def certVerifies (w : TlsWorld) (pool : Option (List Nat)) (cert : Nat) : Bool :=
  w.inDate cert && (pool.getD w.systemCAs).any (fun ca => w.chains cert ca)

/-- The client's decision (`verifyServerCertificate`); `host` is the host it dialled, which
grpc and `net/http` use as the name when none is configured.
Library code, reached from `internal/tls/tls.go:42-73`. -/
def TlsConfig.acceptsServer (w : TlsWorld) (c : TlsConfig) (host : Str) (p : TlsPeer) : Bool :=
  match p.cert with
  | none => false
  | some cert =>
    c.speaks p && p.hasKey &&
      (c.skipVerify ||
        (certVerifies w c.rootCAs cert &&
          w.covers cert (if c.serverName = [] then host else c.serverName)))

/-- The server's decision (`processCertsFromClient`).
Library code, reached from `internal/tls/tls.go:42-73`. -/
def TlsConfig.acceptsClient (w : TlsWorld) (c : TlsConfig) (p : TlsPeer) : Bool :=
  c.speaks p && !c.certificates.isEmpty &&
    (match c.clientAuth, p.cert with
     | .noClientCert, _ => true
     | .requestClientCert, none => true
     | .requestClientCert, some _ => p.hasKey
     | .requireAnyClientCert, none => false
     | .requireAnyClientCert, some _ => p.hasKey
     | .verifyClientCertIfGiven, none => true
     | .verifyClientCertIfGiven, some cert => p.hasKey && certVerifies w c.clientCAs cert
     | .requireAndVerifyClientCert, none => false
     | .requireAndVerifyClientCert, some cert => p.hasKey && certVerifies w c.clientCAs cert)

end LogCache
