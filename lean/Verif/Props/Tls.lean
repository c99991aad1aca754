import Verif.Spec.Tls

/-!
# Property theorems about TLS connections (C130, C131)
-/

namespace LogCache
open Spec

theorem loadCAs_some {w : TlsWorld} {path : Str} {pool : List Nat} :
    loadCAs w path = some pool ↔ w.caFile path = some pool ∧ pool ≠ [] := by
  rw [loadCAs.eq_def]
  rcases h : w.caFile path with _ | l
  · simp
  · cases l with
    | nil => simp
    | cons c cs =>
      simp only [Option.some.injEq]
      constructor
      · rintro rfl; exact ⟨rfl, by simp⟩
      · rintro ⟨rfl, _⟩; rfl

theorem credentials_some {w : TlsWorld} {t : TlsPaths} {cn : Str} {c : TlsConfig} :
    t.credentials w cn = some c ↔
      ∃ cert pool, w.keyPair t.certPath t.keyPath = some cert ∧ w.caFile t.caPath = some pool ∧ pool ≠ [] ∧
        c = { newBaseTLSConfig with serverName := cn, certificates := [cert], rootCAs := some pool } := by
  unfold TlsPaths.credentials
  rw [newMutualTLSConfig.eq_def]
  rcases h : w.keyPair t.certPath t.keyPath with _ | cert
  · simp
  · rcases h2 : loadCAs w t.caPath with _ | pool
    · simp only [reduceCtorEq, false_iff]
      rintro ⟨_, pool, _, h3, h4, _⟩
      rw [loadCAs_some.2 ⟨h3, h4⟩] at h2
      cases h2
    · obtain ⟨h3, h4⟩ := loadCAs_some.1 h2
      simp only [Option.some.injEq]
      constructor
      · rintro rfl; exact ⟨cert, pool, rfl, h3, h4, rfl⟩
      · rintro ⟨cert', pool', h5, h6, _, rfl⟩
        cases h5
        rw [h3] at h6
        cases h6
        rfl

theorem speaks_base {c : TlsConfig} {p : TlsPeer} (hm : c.minVersion = tls12)
    (hs : c.cipherSuites = supportedCipherSuites) : c.speaks p = true ↔ ModernTls p := by
  have hl : c.lowest = 0x0303 := by unfold TlsConfig.lowest; rw [hm]; rfl
  unfold TlsConfig.speaks ModernTls
  rw [hl, hs]
  simp only [supportedCipherSuites, List.isEmpty_cons, Bool.or_false, Bool.and_eq_true,
    Bool.or_eq_true, decide_eq_true_eq, List.contains_eq_mem, List.mem_cons, List.not_mem_nil, or_false]
  simp only [tls13]
  omega

theorem speaks_default {c : TlsConfig} {p : TlsPeer} (hm : c.minVersion = 0) (hs : c.cipherSuites = []) :
    c.speaks p = true ↔ 0x0301 ≤ p.version := by
  unfold TlsConfig.speaks TlsConfig.lowest
  rw [hm, hs]
  simp [tls10]

/-- What the client decides, in the words of the specification. -/
theorem acceptsServer_iff {w : TlsWorld} {c : TlsConfig} {host : Str} {p : TlsPeer} {pool : List Nat}
    {name : Str} (hp : c.rootCAs.getD w.systemCAs = pool) (hv : c.skipVerify = false)
    (hn : (if c.serverName = [] then host else c.serverName) = name) :
    c.acceptsServer w host p = true ↔ Proved w pool name p ∧ c.speaks p = true := by
  subst hn
  rw [TlsConfig.acceptsServer.eq_def]
  unfold Proved certVerifies
  rcases h : p.cert with _ | cert
  · simp
  · simp only [hv, hp, Bool.false_or, Bool.and_eq_true, List.any_eq_true, Option.some.injEq]
    constructor
    · rintro ⟨⟨a, b⟩, ⟨c, d⟩, e⟩; exact ⟨⟨cert, rfl, b, c, e, d⟩, a⟩
    · rintro ⟨⟨_, rfl, b, c, e, d⟩, a⟩; exact ⟨⟨a, b⟩, ⟨c, d⟩, e⟩

/-- With verification on, a command goes on with a call exactly to those servers that proved a
certificate, in date, for the expected name, issued under one of the authorities in the file the
operator named.  Calls to nodes, UAA and CAPI also demand TLS 1.2 with one of two suites, or a
later version. -/
theorem C130_peer {w : TlsWorld} {s : TlsSettings} {o : Outgoing} {c : TlsConfig} {host file : Str}
    {p : TlsPeer} (hf : authorityFile s o = some file) (hc : outgoingConfig w s o = some c)
    (hon : verificationOff s o = false) :
    ∃ authorities, w.caFile file = some authorities ∧ authorities ≠ [] ∧
      (c.acceptsServer w host p = true ↔
        Proved w authorities (expectedName s host o) p ∧
          if o = .gateway then 0x0301 ≤ p.version else ModernTls p) := by
  cases o with
  | node =>
    cases hf
    obtain ⟨cert, pool, _, h2, h3, rfl⟩ := credentials_some.1 hc
    refine ⟨pool, h2, h3, ?_⟩
    rw [acceptsServer_iff (pool := pool) (name := "log-cache".toList) rfl rfl (if_neg (by simp)),
      speaks_base rfl rfl, if_neg (by simp)]
    exact Iff.rfl
  | gateway =>
    cases hf
    simp only [outgoingConfig, newTransportWithRootCA] at hc
    rcases h : loadCAs w s.proxyCAPath with _ | pool
    · rw [h] at hc; cases hc
    · rw [h] at hc
      simp only [Option.some.injEq] at hc
      subst hc
      obtain ⟨h1, h2⟩ := loadCAs_some.1 h
      refine ⟨pool, h1, h2, ?_⟩
      rw [acceptsServer_iff (pool := pool) (name := host) rfl rfl (if_pos rfl), speaks_default rfl rfl,
        if_pos (by rfl)]
      exact Iff.rfl
  | uaa =>
    cases hf
    simp only [outgoingConfig, buildUAAClient] at hc
    rcases h : loadCAs w s.uaaCAPath with _ | pool
    · rw [h] at hc; cases hc
    · rw [h] at hc
      cases hc
      obtain ⟨h1, h2⟩ := loadCAs_some.1 h
      refine ⟨pool, h1, h2, ?_⟩
      rw [acceptsServer_iff (pool := pool) (name := host) rfl hon (if_pos rfl), speaks_base rfl rfl,
        if_neg (by simp)]
      exact Iff.rfl
  | capi =>
    cases hf
    simp only [outgoingConfig, buildCAPIClient] at hc
    rcases h : loadCAs w s.capiCAPath with _ | pool
    · rw [h] at hc; cases hc
    · rw [h] at hc
      cases hc
      obtain ⟨h1, h2⟩ := loadCAs_some.1 h
      refine ⟨pool, h1, h2, ?_⟩
      rw [acceptsServer_iff (pool := pool) (name := expectedName s host .capi) rfl hon rfl,
        speaks_base rfl rfl, if_neg (by simp)]
  | blackboxHttp => cases hf

/-- A world with one authority, number 1; certificate 7 was issued by it for "log-cache",
certificate 8 by no authority. -/
def exampleTlsWorld : TlsWorld :=
  { keyPair := fun _ _ => some 7
    caFile := fun _ => some [1]
    systemCAs := []
    chains := fun cert ca => cert == 7 && ca == 1
    covers := fun cert name => cert == 7 && name == "log-cache".toList
    inDate := fun _ => true }

def exampleTlsSettings : TlsSettings :=
  { node := ⟨"ca".toList, "cert".toList, "key".toList⟩, proxyCAPath := "proxy".toList,
    uaaCAPath := "uaa".toList, capiCAPath := "capi".toList, capiCommonName := "cc".toList,
    skipCertVerify := false, skipTLSVerify := false }

example :
    (∃ c, outgoingConfig exampleTlsWorld exampleTlsSettings .node = some c ∧
      c.acceptsServer exampleTlsWorld "10.0.0.1".toList ⟨some 7, true, 0x0303, 0xc02f⟩ = true ∧
      c.acceptsServer exampleTlsWorld "10.0.0.1".toList ⟨some 8, true, 0x0303, 0xc02f⟩ = false ∧
      c.acceptsServer exampleTlsWorld "10.0.0.1".toList ⟨some 7, true, 0x0302, 0xc02f⟩ = false) ∧
    authorityFile exampleTlsSettings .node = some "ca".toList ∧
    verificationOff exampleTlsSettings .node = false :=
  ⟨⟨_, rfl, by decide, by decide, by decide⟩, rfl, rfl⟩

/-- The blackbox, unless told to skip verification, goes on with a call exactly to those servers
that proved a certificate for the host called, issued under an authority of the system. -/
theorem C130_blackbox {w : TlsWorld} {s : TlsSettings} {host : Str} {p : TlsPeer}
    (hon : verificationOff s .blackboxHttp = false) :
    ∃ c, outgoingConfig w s .blackboxHttp = some c ∧
      (c.acceptsServer w host p = true ↔ Proved w w.systemCAs host p ∧ 0x0301 ≤ p.version) := by
  have h1 : s.skipTLSVerify = false := hon
  refine ⟨{}, ?_, ?_⟩
  · simp only [outgoingConfig, buildHttpClient, h1]
    rfl
  · rw [acceptsServer_iff (pool := w.systemCAs) (name := host) rfl rfl (if_pos rfl), speaks_default rfl rfl]

example : verificationOff exampleTlsSettings .blackboxHttp = false := rfl

/-- A command that cannot read its authorities, or its own certificate, does not start, rather
than going on without verification. -/
theorem C130_missing (w : TlsWorld) (s : TlsSettings) (o : Outgoing) (file : Str)
    (hf : authorityFile s o = some file) (hm : w.caFile file = none ∨ w.caFile file = some []) :
    outgoingConfig w s o = none := by
  have hl : loadCAs w file = none := by
    rcases h : loadCAs w file with _ | pool
    · rfl
    · obtain ⟨h1, h2⟩ := loadCAs_some.1 h
      rcases hm with hm | hm <;> rw [hm] at h1 <;> cases h1
      exact absurd rfl h2
  cases o with
  | node =>
    cases hf
    simp only [outgoingConfig, TlsPaths.credentials]
    rw [newMutualTLSConfig.eq_def]
    rcases w.keyPair s.node.certPath s.node.keyPath with _ | cert
    · rfl
    · simp only [hl]
  | gateway => cases hf; simp only [outgoingConfig, newTransportWithRootCA, hl]
  | uaa => cases hf; simp only [outgoingConfig, buildUAAClient, hl]
  | capi => cases hf; simp only [outgoingConfig, buildCAPIClient, hl]
  | blackboxHttp => cases hf

example : authorityFile exampleTlsSettings .uaa = some "uaa".toList ∧
    ({ exampleTlsWorld with caFile := fun _ => none } : TlsWorld).caFile "uaa".toList = none := ⟨rfl, rfl⟩

/-- The claim "whatever the settings, nobody but the holder of a certificate issued under the
named authorities passes for UAA or CAPI" is false: with `SKIP_CERT_VERIFY` every server passes
that shows any certificate of its own. -/
theorem C130_skip_false {w : TlsWorld} {s : TlsSettings} {o : Outgoing} {c : TlsConfig} {host : Str}
    {p : TlsPeer} (hc : outgoingConfig w s o = some c) (hoff : verificationOff s o = true)
    (hp : ModernTls p) (hcert : p.cert.isSome = true) (hkey : p.hasKey = true) :
    c.acceptsServer w host p = true := by
  obtain ⟨cert, hcert⟩ := Option.isSome_iff_exists.1 hcert
  have key : c.skipVerify = true → c.speaks p = true → c.acceptsServer w host p = true := by
    intro h1 h2
    rw [TlsConfig.acceptsServer.eq_def]
    simp [hcert, h1, h2, hkey]
  cases o with
  | node => cases hoff
  | gateway => cases hoff
  | uaa =>
    simp only [outgoingConfig, buildUAAClient] at hc
    rcases h : loadCAs w s.uaaCAPath with _ | pool
    · rw [h] at hc; cases hc
    · rw [h] at hc
      cases hc
      exact key hoff ((speaks_base rfl rfl).2 hp)
  | capi =>
    simp only [outgoingConfig, buildCAPIClient] at hc
    rcases h : loadCAs w s.capiCAPath with _ | pool
    · rw [h] at hc; cases hc
    · rw [h] at hc
      cases hc
      exact key hoff ((speaks_base rfl rfl).2 hp)
  | blackboxHttp =>
    have h1 : s.skipTLSVerify = true := hoff
    simp only [outgoingConfig, buildHttpClient, h1, if_true, Option.some.injEq] at hc
    subst hc
    refine key rfl ?_
    simp only [TlsConfig.speaks, TlsConfig.lowest, tls10, List.isEmpty_nil, Bool.or_true, Bool.true_or,
        Bool.and_true, decide_eq_true_eq, if_true]
    unfold ModernTls at hp
    omega

example : ∃ c, outgoingConfig exampleTlsWorld { exampleTlsSettings with skipCertVerify := true } .uaa = some c ∧
    c.acceptsServer exampleTlsWorld "uaa".toList ⟨some 8, true, 0x0303, 0xc02f⟩ = true ∧
    ¬ Proved exampleTlsWorld [1] "uaa".toList ⟨some 8, true, 0x0303, 0xc02f⟩ := by
  refine ⟨_, rfl, by decide, ?_⟩
  rintro ⟨cert, h, _, _, h2, _⟩
  cases h
  exact absurd h2 (by decide)

/-- What a node asks of a caller: TLS 1.2 with one of two suites, or a later version; and
nothing else.  (The full claim, that the caller also proves a certificate issued under the
node's authorities, is false: `C131_anyone_false`.) -/
theorem C131_caller_partial {w : TlsWorld} {s : TlsSettings} {c : TlsConfig} {p : TlsPeer}
    (hc : nodeListener w s = some c) : c.acceptsClient w p = true ↔ ModernTls p := by
  obtain ⟨cert, pool, _, _, _, rfl⟩ := credentials_some.1 hc
  rw [TlsConfig.acceptsClient.eq_def]
  rw [Bool.and_eq_true, Bool.and_eq_true, speaks_base rfl rfl]
  simp [newBaseTLSConfig]

/-- What is missing is one setting: were the node's listener to require and verify certificates
against the same authorities, it would serve exactly the callers that prove one. -/
theorem C131_repaired_partial {w : TlsWorld} {s : TlsSettings} {c : TlsConfig} {p : TlsPeer}
    (hc : nodeListener w s = some c) :
    ∃ authorities, w.caFile s.node.caPath = some authorities ∧
      ({ c with clientAuth := .requireAndVerifyClientCert, clientCAs := c.rootCAs }.acceptsClient w p = true ↔
        ModernTls p ∧ ∃ cert, p.cert = some cert ∧ p.hasKey = true ∧ w.inDate cert = true ∧
          ∃ ca ∈ authorities, w.chains cert ca = true) := by
  obtain ⟨cert, pool, _, h2, _, rfl⟩ := credentials_some.1 hc
  refine ⟨pool, h2, ?_⟩
  rw [TlsConfig.acceptsClient.eq_def, Bool.and_eq_true, Bool.and_eq_true, speaks_base rfl rfl]
  rcases h : p.cert with _ | cert
  · simp
  · simp [certVerifies, newBaseTLSConfig]

/-- The same is true of the proxy, whose callers show tokens instead. -/
theorem C131_proxy {w : TlsWorld} {certPath keyPath : Str} {c : TlsConfig} {p : TlsPeer}
    (hc : proxyListener w certPath keyPath = some c) : c.acceptsClient w p = true ↔ ModernTls p := by
  rw [proxyListener.eq_def] at hc
  rcases h : w.keyPair certPath keyPath with _ | cert <;> rw [h] at hc <;> cases hc
  rw [TlsConfig.acceptsClient.eq_def]
  rw [Bool.and_eq_true, Bool.and_eq_true, speaks_base rfl rfl]
  simp [newBaseTLSConfig]

example : (nodeListener exampleTlsWorld exampleTlsSettings).isSome = true ∧
    (proxyListener exampleTlsWorld "cert".toList "key".toList).isSome = true := ⟨rfl, rfl⟩

/-- "A node serves only callers that prove a certificate issued under the authorities of
`CA_PATH`" is false, for every node that starts: a caller with no certificate is served, and so
is a caller with a certificate of nobody's. -/
theorem C131_anyone_false {w : TlsWorld} {s : TlsSettings} {c : TlsConfig}
    (hc : nodeListener w s = some c) :
    ∃ p : TlsPeer, c.acceptsClient w p = true ∧ ∀ authorities name, ¬ Proved w authorities name p :=
  ⟨⟨none, false, 0x0303, 0xc02f⟩, (C131_caller_partial hc).2 (Or.inl ⟨rfl, Or.inl rfl⟩), by
    rintro authorities name ⟨cert, h, _⟩
    cases h⟩

/-- The gateway, which asks for no token, serves callers without a certificate too, from TLS
1.0 on. -/
theorem C131_gateway {w : TlsWorld} {certPath keyPath : Str} {c : TlsConfig} {p : TlsPeer}
    (hc : gatewayListener w certPath keyPath = some c) :
    c.acceptsClient w p = true ↔ 0x0301 ≤ p.version := by
  rw [gatewayListener.eq_def] at hc
  rcases h : w.keyPair certPath keyPath with _ | cert <;> rw [h] at hc <;> cases hc
  rw [TlsConfig.acceptsClient.eq_def]
  simp [TlsConfig.speaks, TlsConfig.lowest, tls10]

example : (gatewayListener exampleTlsWorld "cert".toList "key".toList).isSome = true := rfl

/-- So does the syslog server, with TLS 1.2 and the two suites or later: whoever reaches its port
may write to every source. -/
theorem C131_syslog {w : TlsWorld} {certPath keyPath : Str} {c : TlsConfig} {p : TlsPeer}
    (hc : syslogListener w certPath keyPath = some c) : c.acceptsClient w p = true ↔ ModernTls p := by
  rw [syslogListener.eq_def] at hc
  rcases h : w.keyPair certPath keyPath with _ | cert <;> rw [h] at hc <;> cases hc
  rw [TlsConfig.acceptsClient.eq_def]
  rw [Bool.and_eq_true, Bool.and_eq_true, speaks_base rfl rfl]
  simp

example : (syslogListener exampleTlsWorld "cert".toList "key".toList).isSome = true := rfl

/-- Without a certificate and its key none of the three listeners starts. -/
theorem C131_no_certificate {w : TlsWorld} {certPath keyPath : Str} (h : w.keyPair certPath keyPath = none) :
    syslogListener w certPath keyPath = none ∧ gatewayListener w certPath keyPath = none ∧
    proxyListener w certPath keyPath = none := by
  refine ⟨?_, ?_, ?_⟩
  · rw [syslogListener.eq_def, h]
  · rw [gatewayListener.eq_def, h]
  · rw [proxyListener.eq_def, h]

example : ({ exampleTlsWorld with keyPair := fun _ _ => none } : TlsWorld).keyPair "cert".toList "key".toList = none := rfl

end LogCache
