import Verif.Model.Config
import Verif.Spec.Float
import Verif.Spec.Promql
import Verif.Spec.WhiteSpace

/-! # What settings mean -/

namespace LogCache.Spec

/-! ## Durations -/

/-- Units of time: how they are written, how many nanoseconds they have, and how many
decimal places of them are whole nanoseconds. -/
def UnitText (u : Str) (ns places : Nat) : Prop :=
  (u = "ns".toList ∧ ns = 1 ∧ places = 0) ∨
  ((u = "us".toList ∨ u = "µs".toList ∨ u = "μs".toList) ∧ ns = 10 ^ 3 ∧ places = 3) ∨
  (u = "ms".toList ∧ ns = 10 ^ 6 ∧ places = 6) ∨
  (u = "s".toList ∧ ns = 10 ^ 9 ∧ places = 9) ∨
  (u = "m".toList ∧ ns = 60 * 10 ^ 9 ∧ places = 10) ∨
  (u = "h".toList ∧ ns = 60 * 60 * 10 ^ 9 ∧ places = 11)

/-- The decimal places of a number. -/
def decimalPlaces (s : Str) : Nat := (s.dropWhile (· ≠ '.')).length - 1

/-- A number and its unit, like `1.5h`: `q` is the number of nanoseconds it means, and
`fine` says that it has more decimal places than there are nanoseconds. -/
def DurationPart (s : Str) (q : ℚ) (fine : Bool) : Prop :=
  ∃ num u x ns places, s = num ++ u ∧ DecimalText num x ∧ UnitText u ns places ∧ q = x * ns ∧
    (fine = true ↔ places < decimalPlaces num)

/-- Numbers with their units, one after the other: the sum, and how many of them are
fine. -/
inductive DurationParts : Str → ℚ → Nat → Prop where
  | one {s : Str} {q : ℚ} {fine : Bool} : DurationPart s q fine → DurationParts s q fine.toNat
  | more {s t : Str} {q r : ℚ} {fine : Bool} {n : Nat} : DurationPart s q fine → DurationParts t r n →
      DurationParts (s ++ t) (q + r) (fine.toNat + n)

/-- A duration: a sign or none, and parts or a single zero. -/
inductive GoDurationText : Str → ℚ → Nat → Prop where
  | plain {s : Str} {q : ℚ} {n : Nat} : (DurationParts s q n ∨ (s = ['0'] ∧ q = 0 ∧ n = 0)) →
      GoDurationText s q n
  | plus {s : Str} {q : ℚ} {n : Nat} : (DurationParts s q n ∨ (s = ['0'] ∧ q = 0 ∧ n = 0)) →
      GoDurationText ('+' :: s) q n
  | minus {s : Str} {q : ℚ} {n : Nat} : (DurationParts s q n ∨ (s = ['0'] ∧ q = 0 ∧ n = 0)) →
      GoDurationText ('-' :: s) (-q) n

/-! ## Lists -/

/-- Nothing but white space. -/
def BlankText (s : Str) : Prop := ∀ c ∈ s, whiteSpace c = true

/-- Without white space at the ends. -/
def NoEdgeSpace (s : Str) : Prop :=
  (∀ c, s.head? = some c → whiteSpace c = false) ∧ ∀ c, s.getLast? = some c → whiteSpace c = false

/-- `x` with white space around it. -/
def Padded (s x : Str) : Prop := ∃ l r, BlankText l ∧ BlankText r ∧ s = l ++ x ++ r

/-- Items between commas, with white space around them. -/
inductive ListText : Str → List Str → Prop where
  | one {s x : Str} : Padded s x → NoEdgeSpace x → ',' ∉ x → ListText s [x]
  | more {s t x : Str} {xs : List Str} : Padded s x → NoEdgeSpace x → ',' ∉ x → ListText t xs →
      ListText (s ++ ',' :: t) (x :: xs)

/-! ## Settings -/

/-- `v` is what the text `t` means for a setting of kind `k`. Switches are on for `true` and
`1` and off for every other text. -/
def TextMeans : SettingKind → Str → SettingVal → Prop
  | .text, t, v => v = .text t
  | .bool, t, v => ((t = "true".toList ∨ t = "1".toList) ∧ v = .bool true) ∨
      (t ≠ "true".toList ∧ t ≠ "1".toList ∧ v = .bool false)
  | .int, t, v => ∃ n, IsInt64 t n ∧ v = .int n
  | .uint, t, v => ∃ n, IsUint64 t n ∧ v = .uint n
  | .duration, t, v => ∃ d : Int, v = .duration d ∧ ∃ q n, GoDurationText t q n ∧ |(d : ℚ) - q| ≤ n * (11 / 10)
  | .list, t, v => ∃ xs, ListText t xs ∧ v = .list xs

/-- A setting has the value `v`: what its variable means, or the default if there is none
and the setting may be missing. -/
def SettingHas (env : Str → Str) (s : Setting) (v : SettingVal) : Prop :=
  (env s.name = [] ∧ s.required = false ∧ v = s.init) ∨
  (env s.name ≠ [] ∧ TextMeans s.kind (env s.name) v)

/-- The durations among the settings are not near the ends of their range, about 292 years.
-/
def DurationsFit (env : Str → Str) (ss : List Setting) : Prop :=
  ∀ s ∈ ss, s.kind = .duration → env s.name ≠ [] → (∃ q n, GoDurationText (env s.name) q n) →
    ∃ q n, GoDurationText (env s.name) q n ∧ |q| + 2 * n < 2 ^ 63

/-- A text that is no number or no duration where one is wanted. -/
def Misspelt : SettingKind → Str → Prop
  | .int, t => ∀ n, ¬ IsInt64 t n
  | .uint, t => ∀ n, ¬ IsUint64 t n
  | .duration, t => ∀ q n, ¬ GoDurationText t q n
  | _, _ => False

/-- The command with the settings `ss` starts in the environment `env`, and the setting
called `name` is `v`. -/
def Loaded (env : Str → Str) (ss : List Setting) (name : String) (v : SettingVal) : Prop :=
  ∃ vs, loadSettings env ss = some vs ∧ ∃ s, (s, v) ∈ ss.zip vs ∧ s.name = name.toList

/-! ## Defaults -/

/-- The settings in the order of the configuration: texts that are there, and values of
settings that are not. -/
def GivenOr (env : Str → Str) (table : List (String × Option SettingVal)) : List SettingVal :=
  table.map fun p => p.2.getD (.text (env p.1.toList))

/-- Exactly the settings without a default are there. -/
def OnlyRequired (env : Str → Str) (table : List (String × Option SettingVal)) : Prop :=
  ∀ p ∈ table, (env p.1.toList = [] ↔ p.2.isSome = true)

/-- The settings of `log-cache` with their defaults; those without one must be given. -/
def nodeDefaults : List (String × Option SettingVal) :=
   [("ADDR", none),
    ("HEALTH_PORT", some (.int 6060)),
    ("QUERY_TIMEOUT", some (.duration (10 * 10 ^ 9))),
    ("MEMORY_LIMIT_PERCENT", some (.uint 50)),
    ("MAX_PER_SOURCE", some (.int 100000)),
    ("NODE_INDEX", some (.int 0)),
    ("NODE_ADDRS", some (.list [])),
    ("CA_PATH", none),
    ("CERT_PATH", none),
    ("KEY_PATH", none)]

/-- The settings of `scheduler` with their defaults; those without one must be given. -/
def schedulerDefaults : List (String × Option SettingVal) :=
   [("HEALTH_PORT", some (.int 6064)),
    ("INTERVAL", some (.duration (60 * 10 ^ 9))),
    ("COUNT", some (.int 100)),
    ("REPLICATION_FACTOR", some (.int 1)),
    ("NODE_ADDRS", some (.list [])),
    ("LEADER_ELECTION_ENDPOINT", some (.text [])),
    ("CA_PATH", none),
    ("CERT_PATH", none),
    ("KEY_PATH", none)]

/-- The settings of `gateway` with their defaults; those without one must be given. -/
def gatewayDefaults : List (String × Option SettingVal) :=
   [("ADDR", none),
    ("LOG_CACHE_ADDR", none),
    ("HEALTH_PORT", some (.int 6063)),
    ("PROXY_CERT_PATH", none),
    ("PROXY_KEY_PATH", none),
    ("CA_PATH", none),
    ("CERT_PATH", none),
    ("KEY_PATH", none)]

/-- The settings of `cf-auth-proxy` with their defaults; those without one must be given. -/
def proxyDefaults : List (String × Option SettingVal) :=
   [("LOG_CACHE_GATEWAY_ADDR", none),
    ("ADDR", none),
    ("INTERNAL_IP", some (.text "0.0.0.0".toList)),
    ("HEALTH_PORT", some (.int 6065)),
    ("EXTERNAL_CERT", none),
    ("EXTERNAL_KEY", none),
    ("SKIP_CERT_VERIFY", some (.bool false)),
    ("PROXY_CA_PATH", none),
    ("SECURITY_EVENT_LOG", some (.text [])),
    ("TOKEN_PRUNING_INTERVAL", some (.duration (60 * 10 ^ 9))),
    ("CACHE_EXPIRATION_INTERVAL", some (.duration (60 * 10 ^ 9))),
    ("CAPI_ADDR", none),
    ("CAPI_CA_PATH", none),
    ("CAPI_COMMON_NAME", none),
    ("UAA_CLIENT_ID", none),
    ("UAA_CLIENT_SECRET", none),
    ("UAA_ADDR", none),
    ("UAA_CA_PATH", none)]

/-- A setting of a command: its variable, its kind, and its default; without one it must be
given. -/
abbrev SettingRow := String × SettingKind × Option SettingVal

/-- The settings have, for each row of the table, what the environment says, or the default. -/
def FollowsTable (env : Str → Str) (table : List SettingRow) (vs : List SettingVal) : Prop :=
  List.Forall₂ (fun (r : SettingRow) v => (env r.1.toList = [] ∧ r.2.2 = some v) ∨
    (env r.1.toList ≠ [] ∧ TextMeans r.2.1 (env r.1.toList) v)) table vs

/-- The files of the certificate authority, the certificate and the key. -/
def tlsTable : List SettingRow := [("CA_PATH", .text, none), ("CERT_PATH", .text, none), ("KEY_PATH", .text, none)]

/-- The settings of `nozzle`. -/
def nozzleTable : List SettingRow :=
  [("LOGS_PROVIDER_ADDR", .text, none),
    ("LOGS_PROVIDER_CA_FILE_PATH", .text, none),
    ("LOGS_PROVIDER_CERT_FILE_PATH", .text, none),
    ("LOGS_PROVIDER_KEY_FILE_PATH", .text, none),
    ("LOG_CACHE_ADDR", .text, none),
    ("HEALTH_PORT", .int, some (.int 6061)),
    ("SHARD_ID", .text, none),
    ("SELECTORS", .list, none)] ++ tlsTable

/-- The settings of `syslog-server`. -/
def syslogTable : List SettingRow :=
  [("LOG_CACHE_ADDR", .text, none),
    ("SYSLOG_PORT", .int, none),
    ("HEALTH_PORT", .int, some (.int 6061))] ++ tlsTable ++
  [("SYSLOG_TLS_CERT_PATH", .text, none),
    ("SYSLOG_TLS_KEY_PATH", .text, none),
    ("SYSLOG_IDLE_TIMEOUT", .duration, some (.duration (120 * 10 ^ 9)))]

/-- The settings of `blackbox`. -/
def blackboxTable : List SettingRow :=
  [("EMISSION_INTERVAL", .duration, none),
    ("SAMPLE_INTERVAL", .duration, none),
    ("WINDOW_INTERVAL", .duration, none),
    ("WINDOW_LAG", .duration, none),
    ("SOURCE_ID", .text, none),
    ("CF_BLACKBOX_ENABLED", .bool, some (.bool false)),
    ("DATA_SOURCE_HTTP_ADDR", .text, some (.text [])),
    ("UAA_ADDR", .text, some (.text [])),
    ("CLIENT_ID", .text, some (.text [])),
    ("CLIENT_SECRET", .text, some (.text [])),
    ("SKIP_TLS_VERIFY", .bool, some (.bool false)),
    ("DATA_SOURCE_GRPC_ADDR", .text, some (.text "localhost:8080".toList))] ++ tlsTable

/-! ## Intervals -/

/-- Going on: after every time there is a next one, no later than `d` after it. -/
def GoesOn (d : Int) (times : Nat → List Int) : Prop :=
  ∀ T, 0 ≤ T → ∃ n, ∃ t ∈ times n, T < t ∧ t ≤ T + d

/-! ## Addresses -/

/-- A scheme: a letter, and letters, digits and `+ - .`. -/
def SchemeText (t : Str) : Prop :=
  (∃ c cs, t = c :: cs ∧ letter c) ∧
  ∀ c ∈ t, letter c ∨ digit c ∨ c = '+' ∨ c = '-' ∨ c = '.'

/-- A host, with or without a port. -/
def HostText (h : Str) : Prop :=
  ∃ name, name ≠ [] ∧ ':' ∉ name ∧ '/' ∉ name ∧
    (h = name ∨ ∃ port, port ≠ [] ∧ (∀ c ∈ port, digit c) ∧ h = name ++ ':' :: port)

/-- The characters of addresses the model knows. -/
def PlainAddr (s : Str) : Prop :=
  ∀ c ∈ s, letter c ∨ digit c ∨ c ∈ ['.', '-', '_', ':', '/']

/-! ## Leadership -/

/-- The endpoint says that the scheduler is the leader. -/
def SaysLeader (a : Option LeaderAnswer) : Prop := ∃ r, a = some r ∧ r.status = 200

instance (a : Option LeaderAnswer) : Decidable (SaysLeader a) :=
  match a with
  | none => .isFalse (by rintro ⟨r, h, -⟩; cases h)
  | some r => if h : r.status = 200 then .isTrue ⟨r, rfl, h⟩
    else .isFalse (by rintro ⟨r', h', h2⟩; injection h' with h'; subst h'; exact h h2)

/-- Number of answers with a body. -/
def bodies (as : List (Option LeaderAnswer)) : Nat :=
  as.countP fun a => match a with
    | some r => r.hasBody
    | none => false

end LogCache.Spec
