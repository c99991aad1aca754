import Verif.Proof.Config
import Verif.Props.Cluster
import Verif.Props.Routing
import Verif.Props.Store

/-!
# Property theorems about the settings of the commands (C117-C122)

`loadSettings env ss` is what a command with the settings `ss` reads from its environment;
`none` means that it exits. `Loaded env ss name v` says that it starts and that its setting
`name` is `v`. The tables of settings are in `Verif/Model/Config.lean`.
-/
namespace LogCache
open Spec

/-! ## C117 -/

/-- A command that starts has, for each setting, what the environment says, or the default
if it says nothing and the setting may be missing. -/
theorem C117_values {env : Str → Str} {ss : List Setting} {vs : List SettingVal} (hf : DurationsFit env ss)
    (h : loadSettings env ss = some vs) : List.Forall₂ (SettingHas env) ss vs := by
  rw [loadSettings_forall] at h
  have hf' : ∀ s ∈ ss, s.kind = .duration → env s.name ≠ [] → (∃ q n, GoDurationText (env s.name) q n) →
    ∃ q n, GoDurationText (env s.name) q n ∧ |q| + 2 * n < 2 ^ 63 := hf
  clear hf
  induction h with
  | nil => exact .nil
  | @cons s v ss vs hs _ ih =>
    refine .cons ?_ (ih (fun s' hs' => hf' s' (List.mem_cons_of_mem _ hs')))
    unfold loadSetting at hs
    by_cases he : env s.name = []
    · rw [if_pos he] at hs
      by_cases hr : s.required = true
      · rw [if_pos hr] at hs; cases hs
      · rw [if_neg hr, Option.some.injEq] at hs
        exact .inl ⟨he, by simpa using hr, hs.symm⟩
    · rw [if_neg he] at hs
      exact .inr ⟨he, readSetting_sound (fun hk => hf' s (by simp) hk he) hs⟩

/-- It starts if every setting has a value. -/
theorem C117_starts {env : Str → Str} {ss : List Setting} (hf : DurationsFit env ss)
    (h : ∀ s ∈ ss, ∃ v, SettingHas env s v) : ∃ vs, loadSettings env ss = some vs := by
  induction ss with
  | nil => exact ⟨[], rfl⟩
  | cons s ss ih =>
    obtain ⟨vs, hvs⟩ := ih (fun s' hs' => hf s' (List.mem_cons_of_mem _ hs'))
      (fun s' hs' => h s' (List.mem_cons_of_mem _ hs'))
    obtain ⟨v, hv⟩ := h s (by simp)
    have : ∃ v', loadSetting env s = some v' := by
      unfold loadSetting
      rcases hv with ⟨he, hr, -⟩ | ⟨he, ht⟩
      · exact ⟨s.init, by rw [if_pos he, if_neg (by simp [hr])]⟩
      · rw [if_neg he]
        exact readSetting_complete (fun hk => hf s (by simp) hk he) ht
    obtain ⟨v', hv'⟩ := this
    exact ⟨v' :: vs, by rw [loadSettings, hv', hvs]⟩

/-- It does not start if a required setting is missing. -/
theorem C117_required {env : Str → Str} {ss : List Setting} {s : Setting} (hs : s ∈ ss) (hr : s.required = true)
    (he : env s.name = []) : loadSettings env ss = none := by
  cases h : loadSettings env ss with
  | none => rfl
  | some vs =>
    rw [loadSettings_forall] at h
    obtain ⟨i, hi, rfl⟩ := List.mem_iff_getElem.1 hs
    have := h.get hi (by rw [← h.length_eq]; exact hi)
    simp only [List.get_eq_getElem] at this
    unfold loadSetting at this
    rw [if_pos he, if_pos hr] at this
    cases this

/-- A duration without decimals beyond nanoseconds is read exactly. -/
theorem C117_duration {s : Str} {q : ℚ} (h : GoDurationText s q 0) (hq : |q| < 2 ^ 63) :
    ∃ d : Int, goDuration s = some d ∧ (d : ℚ) = q := by
  obtain ⟨d, hd, hv⟩ := goDuration_text h (by simpa using hq)
  refine ⟨d, hd, ?_⟩
  have : |(d : ℚ) - q| ≤ 0 := by simpa using hv
  exact sub_eq_zero.1 (abs_eq_zero.1 (le_antisymm this (abs_nonneg _)))

/-- An environment: the given variables, and `x` for all other texts a command requires. -/
def envWith (ss : List Setting) (given : List (String × String)) (name : Str) : Str :=
  match given.find? (fun p => p.1.toList = name) with
  | some p => p.2.toList
  | none => if ss.any (fun s => s.name = name && s.required && s.kind = .text) then "x".toList else []

/-- 1m30s is 90 seconds. -/
theorem ninety_seconds : GoDurationText "1m30s".toList (90 * 10 ^ 9) 0 := by
  have d1 : DurationPart "1m".toList (60 * 10 ^ 9) false := by
    refine ⟨"1".toList, "m".toList, 1, 60 * 10 ^ 9, 10, rfl, .inl ⟨1, ?_, by norm_num⟩, ?_, by norm_num, by decide⟩
    · exact (parseDigits_iff _ _).1 (by decide +kernel)
    · right; right; right; right; left; exact ⟨rfl, rfl, rfl⟩
  have d2 : DurationPart "30s".toList (30 * 10 ^ 9) false := by
    refine ⟨"30".toList, "s".toList, 30, 10 ^ 9, 9, rfl, .inl ⟨30, ?_, by norm_num⟩, ?_, by norm_num, by decide⟩
    · exact (parseDigits_iff _ _).1 (by decide +kernel)
    · right; right; right; left; exact ⟨rfl, rfl, rfl⟩
  have := GoDurationText.plain (.inl (DurationParts.more d1 (.one d2)))
  norm_num at this ⊢
  exact this

/-- How to show that a command starts with a setting. -/
theorem loaded_of {env : Str → Str} {ss : List Setting} {name : String} {v : SettingVal}
    (h : (match loadSettings env ss with
      | some vs => (ss.zip vs).any fun p => decide (p.1.name = name.toList) && decide (p.2 = v)
      | none => false) = true) : Loaded env ss name v := by
  cases hl : loadSettings env ss with
  | none => rw [hl] at h; cases h
  | some vs =>
    rw [hl] at h
    obtain ⟨⟨s, w⟩, hm, hp⟩ := List.any_eq_true.1 h
    simp only [Bool.and_eq_true, decide_eq_true_eq] at hp
    obtain ⟨h1, rfl⟩ := hp
    exact ⟨vs, hl, s, hm, h1⟩

/-- A node with two addresses and a query timeout of 1m30s. -/
example : loadSettings (envWith nodeSettings [("NODE_ADDRS", "a:8080, b:8080"), ("QUERY_TIMEOUT", "1m30s"),
      ("NODE_INDEX", "1")]) nodeSettings =
    some [.text "x".toList, .int 6060, .duration 90000000000, .uint 50, .int 100000, .int 1,
      .list ["a:8080".toList, "b:8080".toList], .text "x".toList, .text "x".toList, .text "x".toList] := by
  decide +kernel

example : DurationsFit (envWith nodeSettings [("NODE_ADDRS", "a:8080, b:8080"), ("QUERY_TIMEOUT", "1m30s"),
      ("NODE_INDEX", "1")]) nodeSettings := by
  intro s hs hk _ _
  have all : ∀ s ∈ nodeSettings, s.kind = .duration → s.name = "QUERY_TIMEOUT".toList := by decide +kernel
  have := all s hs hk
  rw [this]
  have h2 : envWith nodeSettings [("NODE_ADDRS", "a:8080, b:8080"), ("QUERY_TIMEOUT", "1m30s"),
      ("NODE_INDEX", "1")] "QUERY_TIMEOUT".toList = "1m30s".toList := by decide +kernel
  rw [h2]
  exact ⟨_, _, ninety_seconds, by norm_num⟩

/-- The settings and the table of defaults say the same. -/
def sameDefaults : List Setting → List (String × Option SettingVal) → Bool
  | [], [] => true
  | s :: ss, (name, some v) :: ps =>
    decide (s.name = name.toList) && !s.required && decide (s.init = v) && sameDefaults ss ps
  | s :: ss, (name, none) :: ps =>
    decide (s.name = name.toList) && s.required && decide (s.kind = .text) && sameDefaults ss ps
  | _, _ => false

theorem defaults_of {env : Str → Str} : ∀ {ss : List Setting} {table : List (String × Option SettingVal)},
    sameDefaults ss table = true → OnlyRequired env table → loadSettings env ss = some (GivenOr env table)
  | [], [], _, _ => rfl
  | [], _ :: _, h, _ => by simp [sameDefaults] at h
  | _ :: _, [], h, _ => by simp [sameDefaults] at h
  | s :: ss, (name, some v) :: ps, h, ho => by
    simp only [sameDefaults, Bool.and_eq_true, Bool.not_eq_true', decide_eq_true_eq] at h
    obtain ⟨⟨⟨h1, h2⟩, h3⟩, h4⟩ := h
    have ih := defaults_of h4 (fun p hp => ho p (List.mem_cons_of_mem _ hp))
    have he : env s.name = [] := by rw [h1]; exact (ho (name, some v) (by simp)).2 rfl
    rw [loadSettings, loadSetting, if_pos he, if_neg (by simp [h2]), ih, h3]
    rfl
  | s :: ss, (name, none) :: ps, h, ho => by
    simp only [sameDefaults, Bool.and_eq_true, decide_eq_true_eq] at h
    obtain ⟨⟨⟨h1, h2⟩, h3⟩, h4⟩ := h
    have ih := defaults_of h4 (fun p hp => ho p (List.mem_cons_of_mem _ hp))
    have he : env s.name ≠ [] := by
      rw [h1]
      intro he
      exact absurd ((ho (name, none) (by simp)).1 he) (by simp)
    rw [loadSettings, loadSetting, if_neg he, h3, ih, h1]
    rfl

/-- The defaults of `log-cache`. -/
theorem C117_node_defaults {env : Str → Str} (h : OnlyRequired env nodeDefaults) :
    loadSettings env nodeSettings = some (GivenOr env nodeDefaults) := by
  exact defaults_of (by decide +kernel) h

/-- The defaults of `scheduler`. -/
theorem C117_scheduler_defaults {env : Str → Str} (h : OnlyRequired env schedulerDefaults) :
    loadSettings env schedulerSettings = some (GivenOr env schedulerDefaults) := by
  exact defaults_of (by decide +kernel) h

/-- The defaults of `gateway`. -/
theorem C117_gateway_defaults {env : Str → Str} (h : OnlyRequired env gatewayDefaults) :
    loadSettings env gatewaySettings = some (GivenOr env gatewayDefaults) := by
  exact defaults_of (by decide +kernel) h

/-- The defaults of `cf-auth-proxy`. -/
theorem C117_proxy_defaults {env : Str → Str} (h : OnlyRequired env proxyDefaults) :
    loadSettings env authProxySettings = some (GivenOr env proxyDefaults) := by
  exact defaults_of (by decide +kernel) h

/-- A row of a table for a setting. -/
def rowFits (s : Setting) (r : SettingRow) : Bool :=
  decide (s.name = r.1.toList) && decide (s.kind = r.2.1) &&
    decide ((if s.required then none else some s.init) = r.2.2)

theorem follows_of {env : Str → Str} : ∀ {ss : List Setting} {table : List SettingRow} {vs : List SettingVal},
    ss.length = table.length → ((ss.zip table).all fun p => rowFits p.1 p.2) = true →
    List.Forall₂ (SettingHas env) ss vs → FollowsTable env table vs
  | [], [], _, _, _, .nil => .nil
  | [], _ :: _, _, h, _, _ => by simp at h
  | _ :: _, [], _, h, _, _ => by simp at h
  | s :: ss, r :: table, _, hl, h, .cons hs ht => by
    simp only [List.zip_cons_cons, List.all_cons, Bool.and_eq_true] at h
    refine .cons ?_ (follows_of (by simpa using hl) h.2 ht)
    have hr := h.1
    unfold rowFits at hr
    simp only [Bool.and_eq_true, decide_eq_true_eq] at hr
    obtain ⟨⟨h1, h2⟩, h3⟩ := hr
    unfold SettingHas at hs
    rw [h1, h2] at hs
    rcases hs with ⟨a, b, rfl⟩ | hs
    · rw [b] at h3
      exact .inl ⟨a, h3.symm⟩
    · exact .inr hs

/-- The settings of a `nozzle` that starts. -/
theorem C117_nozzle {env : Str → Str} {vs : List SettingVal} (hf : DurationsFit env nozzleSettings)
    (h : loadSettings env nozzleSettings = some vs) : FollowsTable env nozzleTable vs :=
  follows_of (by decide +kernel) (by decide +kernel) (C117_values hf h)

/-- The settings of a `syslog-server` that starts. -/
theorem C117_syslog {env : Str → Str} {vs : List SettingVal} (hf : DurationsFit env syslogSettings)
    (h : loadSettings env syslogSettings = some vs) : FollowsTable env syslogTable vs :=
  follows_of (by decide +kernel) (by decide +kernel) (C117_values hf h)

/-- The settings of a `blackbox` that starts. -/
theorem C117_blackbox {env : Str → Str} {vs : List SettingVal} (hf : DurationsFit env blackboxSettings)
    (h : loadSettings env blackboxSettings = some vs) : FollowsTable env blackboxTable vs :=
  follows_of (by decide +kernel) (by decide +kernel) (C117_values hf h)

/-- A syslog server that starts. -/
example : loadSettings (envWith syslogSettings [("SYSLOG_PORT", "8888")]) syslogSettings =
    some [.text "x".toList, .int 8888, .int 6061, .text "x".toList, .text "x".toList, .text "x".toList,
      .text "x".toList, .text "x".toList, .duration 120000000000] := by decide +kernel

/-- the environment of a node with nothing optional -/
example : OnlyRequired (envWith nodeSettings []) nodeDefaults := by
  unfold OnlyRequired
  decide +kernel

/-! ## C118 -/

/-- A command does not start if a setting that is a number or a duration is misspelt. -/
theorem C118_refused_partial {env : Str → Str} {ss : List Setting} {s : Setting} (hs : s ∈ ss)
    (he : env s.name ≠ []) (hm : Misspelt s.kind (env s.name)) : loadSettings env ss = none := by
  cases h : loadSettings env ss with
  | none => rfl
  | some vs =>
    exfalso
    rw [loadSettings_forall] at h
    obtain ⟨i, hi, rfl⟩ := List.mem_iff_getElem.1 hs
    have := h.get hi (by rw [← h.length_eq]; exact hi)
    simp only [List.get_eq_getElem] at this
    unfold loadSetting at this
    rw [if_neg he] at this
    generalize ss[i].kind = k at this hm
    generalize env ss[i].name = t at this hm
    cases k with
    | text => exact hm
    | bool => exact hm
    | list => exact hm
    | int =>
      obtain ⟨n, hn, -⟩ := Option.map_eq_some_iff.1 this
      exact hm n ((parseInt64_iff _ _).1 hn)
    | uint =>
      obtain ⟨n, hn, -⟩ := Option.map_eq_some_iff.1 this
      exact hm n ((parseUint64_iff _ _).1 hn)
    | duration =>
      obtain ⟨d, hd, -⟩ := Option.map_eq_some_iff.1 this
      obtain ⟨q, n, ht⟩ := goDuration_sound hd
      exact hm q n ht

/-- `COUNT=1e3` -/
example : Misspelt .int "1e3".toList := by
  intro n hn
  exact absurd ((parseInt64_iff _ _).2 hn) (by rw [show parseInt64 "1e3".toList = none by decide +kernel]; simp)

/-- But a misspelt switch is off, without a word: certificates are checked with
`SKIP_CERT_VERIFY=True`. -/
theorem C118_switch_false : ∃ env, env "SKIP_CERT_VERIFY".toList = "True".toList ∧
    Loaded env authProxySettings "SKIP_CERT_VERIFY" (.bool false) :=
  ⟨envWith authProxySettings [("SKIP_CERT_VERIFY", "True")], by decide +kernel, loaded_of (by decide +kernel)⟩

/-- A comma after the last address is another node. -/
theorem C118_comma_false : ∃ env, env "NODE_ADDRS".toList = "a:8080,".toList ∧
    Loaded env nodeSettings "NODE_ADDRS" (.list ["a:8080".toList, []]) ∧
    nodeCount ["a:8080".toList, []] = 2 :=
  ⟨envWith nodeSettings [("NODE_ADDRS", "a:8080,")], by decide +kernel, loaded_of (by decide +kernel), by decide⟩

/-- A node without addresses of nodes is set up as one with a single address is. -/
theorem C118_alone (index : Int) (addr : Str) :
    (∃ env, env "NODE_ADDRS".toList = [] ∧ Loaded env nodeSettings "NODE_ADDRS" (.list [])) ∧
    setupNode index (nodeCount []) = setupNode index (nodeCount [addr]) :=
  ⟨⟨envWith nodeSettings [], by decide +kernel, loaded_of (by decide +kernel)⟩, rfl⟩

/-- The default of a required setting is never used: whatever it is, the command needs the
variable. -/
theorem C118_default_false {env : Str → Str} (he : env "LOG_CACHE_GATEWAY_ADDR".toList = []) :
    (⟨"LOG_CACHE_GATEWAY_ADDR".toList, .text, true, .text "localhost:8081".toList⟩ : Setting) ∈ authProxySettings ∧
    loadSettings env authProxySettings = none := by
  have hm : (⟨"LOG_CACHE_GATEWAY_ADDR".toList, .text, true, .text "localhost:8081".toList⟩ : Setting) ∈
      authProxySettings := by decide +kernel
  exact ⟨hm, C117_required hm rfl he⟩

/-! ## C119 -/

theorem timeTick_covers {d : Int} (hd : 0 < d) {T : Int} (hT : 0 ≤ T) :
    ∃ n, ∀ m, n ≤ m → ∃ t ∈ timeTick d m, T < t ∧ t ≤ T + d := by
  refine ⟨(T / d).toNat + 1, fun m hm => ⟨d * (T / d + 1), ?_, ?_, ?_⟩⟩
  · unfold timeTick
    rw [if_neg (by omega), List.mem_map]
    refine ⟨(T / d).toNat, by simp; omega, ?_⟩
    have : 0 ≤ T / d := Int.ediv_nonneg hT hd.le
    rw [Int.toNat_of_nonneg this]
  · have := Int.lt_ediv_add_one_mul_self T hd
    rw [mul_comm] at this; exact this
  · have := Int.ediv_mul_le T hd.ne'
    have e : d * (T / d + 1) = T / d * d + d := by ring
    rw [e]; omega

/-- With positive settings the processes do what they are for: nodes take every envelope,
the scheduler divides the hashes among its ranges and goes on doing terms, the proxy goes
on removing tokens, and the blackbox goes on asking and emitting. -/
theorem C119_works_partial :
    (∀ (m : Int), 1 ≤ m → ∀ ops st, Run (newStore { maxPerSource := m }) ops st →
      ∀ now src e, ∃ st', put now st src e = some st') ∧
    (∀ count : Int, 1 ≤ count → count ≤ 2 ^ 32 → ∃ rs, schedRanges count = some rs ∧
      ∀ h, h ≤ maxHash → (rs.filter (covers h)).length = 1) ∧
    (∀ d : Int, 0 < d → GoesOn d (schedulerTerms d) ∧ GoesOn d (tokenPrunes d)) ∧
    ∀ a b : Int, 0 < a → 0 < b → ∃ asks emits, (∀ n, blackboxTicks a b n = some (asks n, emits n)) ∧
      GoesOn a asks ∧ GoesOn b emits := by
  have hg : ∀ d : Int, 0 < d → GoesOn d (timeTick d) := by
    intro d hd T hT
    obtain ⟨n, h⟩ := timeTick_covers hd hT
    exact ⟨n, h n (Nat.le_refl _)⟩
  refine ⟨fun m hm ops st h now src e => C01_put_total hm h now src e, ?_, ?_, ?_⟩
  · intro count h1 h2
    obtain ⟨rs, h, -, h', -⟩ := C30_partition h1 h2
    exact ⟨rs, h, h'⟩
  · intro d hd
    refine ⟨?_, hg d hd⟩
    intro T hT
    obtain ⟨n, t, ht, h⟩ := hg d hd T hT
    exact ⟨n, t, List.mem_cons_of_mem _ ht, h⟩
  · intro a b ha hb
    refine ⟨timeTick a, timeTick b, ?_, hg a ha, hg b hb⟩
    intro n
    unfold blackboxTicks newTicker timeTick
    rw [if_neg (by omega), if_neg (by omega), if_neg (by omega), if_neg (by omega)]

/-- `COUNT=0` is accepted and the scheduler dies. -/
theorem C119_count_false : ∃ env, Loaded env schedulerSettings "COUNT" (.int 0) ∧ schedRanges 0 = none :=
  ⟨envWith schedulerSettings [("COUNT", "0")], loaded_of (by decide +kernel), by decide⟩

/-- `INTERVAL=0` (or less) is accepted, and the scheduler does one term and never another.
-/
theorem C119_interval_false : ∃ env d, Loaded env schedulerSettings "INTERVAL" (.duration d) ∧
    ∀ n, schedulerTerms d n = [0] :=
  ⟨envWith schedulerSettings [("INTERVAL", "-1m")], -60000000000, loaded_of (by decide +kernel), fun _ => rfl⟩

/-- `TOKEN_PRUNING_INTERVAL=0` is accepted, and no token is ever removed. -/
theorem C119_tokens_false : ∃ env d, Loaded env authProxySettings "TOKEN_PRUNING_INTERVAL" (.duration d) ∧
    ∀ n, tokenPrunes d n = [] :=
  ⟨envWith authProxySettings [("TOKEN_PRUNING_INTERVAL", "0")], 0, loaded_of (by decide +kernel), fun _ => rfl⟩

/-- `SAMPLE_INTERVAL=0` is accepted, and the blackbox dies. -/
theorem C119_blackbox_false : ∃ env d, Loaded env blackboxSettings "SAMPLE_INTERVAL" (.duration d) ∧
    ∀ e n, blackboxTicks d e n = none :=
  ⟨envWith blackboxSettings [("SAMPLE_INTERVAL", "0"), ("EMISSION_INTERVAL", "1s"), ("WINDOW_INTERVAL", "10m"),
    ("WINDOW_LAG", "1m")], 0, loaded_of (by decide +kernel), fun _ _ => rfl⟩

/-- `MAX_PER_SOURCE=0` (or less) is accepted, and the node dies of the first envelope. -/
theorem C119_capacity_false : ∃ env, Loaded env nodeSettings "MAX_PER_SOURCE" (.int 0) ∧
    ∀ now src e, put now (newStore { maxPerSource := 0 }) src e = none :=
  ⟨envWith nodeSettings [("MAX_PER_SOURCE", "0")], loaded_of (by decide +kernel), fun _ _ _ => rfl⟩

/-! ## C120 -/

theorem https_lower : "https".toList.map lowerChar = "https".toList := by decide

/-- With the address `scheme://host[:port][/path]`, requests go to that host by HTTPS, to
their path under the given one. -/
theorem C120_url_partial {t h p : Str} (ht : SchemeText t) (hh : HostText h) (hp : p = [] ∨ ∃ r, p = '/' :: r)
    (_hplain : PlainAddr (t ++ "://".toList ++ h ++ p)) :
    ∃ u, proxyTarget (t ++ "://".toList ++ h ++ p) = some u ∧
      (∀ path, proxySends u ('/' :: path) =
        some ("https".toList, h, (if p.getLast? = some '/' then p.dropLast else p) ++ '/' :: path)) := by
  obtain ⟨-, hne, hs⟩ := host_port hh
  have e : t ++ "://".toList ++ h ++ p = t ++ ':' :: '/' :: '/' :: (h ++ p) := by simp
  have e2 : urlString ({ scheme := "https".toList, host := h, path := p } : GoUrl) =
      "https".toList ++ ':' :: '/' :: '/' :: (h ++ p) := by
    unfold urlString
    rcases hp with rfl | ⟨r, rfl⟩ <;> simp [hne]
  refine ⟨{ scheme := "https".toList, host := h, path := p }, ?_, ?_⟩
  · unfold proxyTarget
    rw [e, urlParse_full ht hh hp]
    show urlParse (urlString { scheme := "https".toList, host := h, path := p }) = _
    rw [e2, urlParse_full https_scheme hh hp, https_lower]
  · intro path
    unfold proxySends joinSlash
    rw [if_neg hne]
    by_cases hl : p.getLast? = some '/'
    · rw [if_pos ⟨hl, rfl⟩, if_pos hl]
      obtain ⟨q, rfl⟩ : ∃ q, p = q ++ ['/'] := by
        rcases List.eq_nil_or_concat p with rfl | ⟨q, c, rfl⟩
        · cases hl
        · rw [List.concat_eq_append, List.getLast?_concat, Option.some.injEq] at hl
          exact ⟨q, by rw [List.concat_eq_append, hl]⟩
      simp
    · rw [if_neg (fun h => hl h.1), if_neg (fun h => h.2 rfl), if_neg hl]

/-- So do the requests of a proxy whose address is a name alone. -/
theorem C120_name_partial {h : Str} (hne : h ≠ []) (hc : ':' ∉ h) (hs : '/' ∉ h) (_hplain : PlainAddr h) :
    ∃ u, proxyTarget h = some u ∧
      ∀ path, proxySends u ('/' :: path) = some ("https".toList, h, '/' :: path) := by
  have hh : HostText h := ⟨h, hne, hc, hs, .inl rfl⟩
  obtain ⟨c, cs, rfl⟩ : ∃ c cs, h = c :: cs := by
    cases h with
    | nil => exact absurd rfl hne
    | cons c cs => exact ⟨c, cs, rfl⟩
  have hc0 : c ≠ '/' := fun e => hs (by rw [e]; simp)
  have e1 : urlParse (c :: cs) = some { path := c :: cs } := by
    unfold urlParse
    rw [urlScheme_none (fun hm => hc ((List.takeWhile_prefix _).subset hm))]
    simp only [List.map_nil]
    have hp1 : "/".toList.isPrefixOf (c :: cs) = false := by
      show (('/' == c) && _) = false
      rw [beq_false_of_ne (Ne.symm hc0)]; rfl
    have hp2 : "//".toList.isPrefixOf (c :: cs) = false := by
      show (('/' == c) && _) = false
      rw [beq_false_of_ne (Ne.symm hc0)]; rfl
    have hct : ((c :: cs).takeWhile (· ≠ '/')).contains ':' = false := by
      have : ':' ∉ (c :: cs).takeWhile (· ≠ '/') := fun hm => hc ((List.takeWhile_prefix _).subset hm)
      simpa using this
    rw [hp1, hp2, hct, if_neg (by simp), if_neg (by simp), if_neg (by simp)]
  refine ⟨{ scheme := "https".toList, host := c :: cs, path := [] }, ?_, ?_⟩
  · unfold proxyTarget
    rw [e1]
    have e2 : urlString ({ scheme := "https".toList, path := c :: cs } : GoUrl) =
        "https".toList ++ ':' :: '/' :: '/' :: ((c :: cs) ++ []) := by
      unfold urlString
      simp
    show urlParse (urlString { scheme := "https".toList, path := c :: cs }) = _
    rw [e2, urlParse_full https_scheme hh (.inl rfl), https_lower]
  · intro path
    unfold proxySends joinSlash
    rw [if_neg (by simp), if_neg (by simp), if_neg (by simp)]
    rfl

/-- `https://gateway:8081/cache/` -/
example : SchemeText "https".toList ∧ HostText "gateway:8081".toList ∧
    PlainAddr ("https".toList ++ "://".toList ++ "gateway:8081".toList ++ "/cache/".toList) :=
  ⟨https_scheme, ⟨"gateway".toList, by decide, by decide, by decide, .inr ⟨"8081".toList, by decide, by decide, rfl⟩⟩,
    by unfold PlainAddr; decide⟩

theorem urlParse_named {t : Str} {c : Char} {cs : Str} (ht : SchemeText t) (hc0 : c ≠ '/') :
    urlParse (t ++ ':' :: c :: cs) = some { scheme := t.map lowerChar, opaq := c :: cs } := by
  have hsch : urlScheme (t ++ ':' :: c :: cs) true [] (t ++ ':' :: c :: cs) = some (t, c :: cs) := by
    rcases urlScheme_name (all := t ++ ':' :: c :: cs) (t := t) (r := c :: cs) (first := true) (seen := [])
      (fun _ => (schemeText_iff ht).1) (schemeText_iff ht).2 with h | ⟨h, -⟩
    · exact h
    · obtain ⟨c, cs, e, -⟩ := ht.1
      rw [h] at e; cases e
  have htne : t.map lowerChar ≠ [] := by
    obtain ⟨c, cs, e, -⟩ := ht.1
    rw [e]; simp
  unfold urlParse
  rw [hsch]
  simp only []
  have hp1 : "/".toList.isPrefixOf (c :: cs) = false := by
    show (('/' == c) && _) = false
    rw [beq_false_of_ne (Ne.symm hc0)]; rfl
  rw [hp1, if_pos ⟨rfl, htne⟩]

/-- With `name:port`, the form of the address in the default, every request fails. -/
theorem C120_port_false {name port : Str} (hn : SchemeText name)
    (hp : ∃ c cs, port = c :: cs ∧ ∀ d ∈ port, digit d) :
    ∃ u, proxyTarget (name ++ ':' :: port) = some u ∧ ∀ path, proxySends u path = none := by
  obtain ⟨c, cs, rfl, hd⟩ := hp
  have hc0 : c ≠ '/' := by
    rintro rfl
    exact absurd (hd '/' (by simp)) (by decide)
  have key : ∀ t, SchemeText t → urlParse (t ++ ':' :: c :: cs) =
      some { scheme := t.map lowerChar, opaq := c :: cs } := fun t ht => urlParse_named ht hc0
  refine ⟨{ scheme := "https".toList, opaq := c :: cs }, ?_, fun path => rfl⟩
  unfold proxyTarget
  rw [key name hn]
  have e2 : urlString ({ scheme := "https".toList, opaq := c :: cs } : GoUrl) = "https".toList ++ ':' :: c :: cs := by
    unfold urlString
    simp
  show urlParse (urlString { scheme := "https".toList, opaq := c :: cs }) = _
  rw [e2, key _ https_scheme, https_lower]

/-- The proxy starts with such an address. -/
example : ∃ env, Loaded env authProxySettings "LOG_CACHE_GATEWAY_ADDR" (.text "localhost:8081".toList) ∧
    SchemeText "localhost".toList :=
  ⟨envWith authProxySettings [("LOG_CACHE_GATEWAY_ADDR", "localhost:8081")], loaded_of (by decide +kernel),
    ⟨'l', "ocalhost".toList, rfl, by decide⟩, by decide⟩

/-- With an IP address and a port it does not. -/
theorem C120_ip_false : proxyTarget "10.0.16.5:8081".toList = none := by decide +kernel

/-! ## C121 -/

theorem setupNode_own {j n : Nat} (h : j < n) : (setupNode (j : Int) n).2 = j := by
  unfold setupNode
  rw [if_neg (by omega), Int.toNat_natCast, (setup_spec j (fun _ => true) n 0 (fun _ _ _ _ => rfl)).2,
    if_pos ⟨Nat.zero_le _, by omega⟩]

/-- If every node's index is its place in the list of addresses, then, whichever node it is
sent to, an envelope is put into the stores of the nodes its source belongs to, and into no
other. -/
theorem C121_lands_partial {index : Nat → Int} {n : Nat} (hi : ∀ j, j < n → index j = j) (owners : List Nat)
    {j : Nat} (hj : j < n) (k : Nat) : EnvelopeLands index n owners j k ↔ k ∈ owners ∧ k < n := by
  have hl : ∀ i, i < n → (LocalLands index n i k ↔ k = i) := by
    intro i hin
    constructor
    · intro h
      cases h with
      | here _ => rfl
      | on hne _ => exact absurd (by rw [hi i hin, setupNode_own hin]) hne
    · rintro rfl
      exact .here (by rw [hi _ hin, setupNode_own hin])
  unfold EnvelopeLands
  constructor
  · rintro ⟨i, hm, hin, h⟩
    by_cases he : (i : Int) = index j
    · rw [if_pos he] at h
      rw [hi j hj] at he
      have : i = j := by exact_mod_cast he
      subst h; subst this
      exact ⟨hm, hin⟩
    · rw [if_neg he, hl i hin] at h
      subst h
      exact ⟨hm, hin⟩
  · rintro ⟨hm, hk⟩
    refine ⟨k, hm, hk, ?_⟩
    by_cases he : (k : Int) = index j
    · rw [if_pos he]
      rw [hi j hj] at he
      exact_mod_cast he
    · rw [if_neg he, hl k hk]

/-- three nodes, a source of the nodes 0 and 2, sent to node 1 -/
example : EnvelopeLands (fun j => j) 3 [0, 2] 1 2 :=
  (C121_lands_partial (fun _ _ => rfl) _ (by decide) _).2 ⟨by decide, by decide⟩

/-- But any index is accepted. If the first node's index is none of the places in the list,
it sends requests for its own store to itself without end, and nothing is ever stored. -/
theorem C121_outside_false {index : Nat → Int} {n : Nat} (hn : 0 < n) (h : index 0 < 0 ∨ (n : Int) ≤ index 0) (k : Nat) :
    ¬ LocalLands index n 0 k := by
  have h0 : (setupNode (index 0) n).2 = 0 := by
    unfold setupNode
    split
    · rw [(setup_spec n (fun _ => true) n 0 (fun _ _ _ _ => rfl)).2, if_neg (by omega)]
    · rw [(setup_spec _ (fun _ => true) n 0 (fun _ _ _ _ => rfl)).2, if_neg (by omega)]
  have key : ∀ i k, LocalLands index n i k → i = 0 → n = 0 := by
    intro i k hl
    induction hl with
    | here he =>
      rintro rfl
      rw [h0] at he
      omega
    | on _ _ ih =>
      rintro rfl
      exact ih h0
  intro hl
  exact absurd (key _ _ hl rfl) (by omega)

/-- One node with the index 1, which it accepts: no envelope lands anywhere. -/
theorem C121_single_false : ∃ env, Loaded env nodeSettings "NODE_INDEX" (.int 1) ∧
    Loaded env nodeSettings "NODE_ADDRS" (.list ["a:8080".toList]) ∧
    ∀ k, ¬ EnvelopeLands (fun _ => 1) 1 [0] 0 k := by
  refine ⟨envWith nodeSettings [("NODE_ADDRS", "a:8080"), ("NODE_INDEX", "1")], loaded_of (by decide +kernel),
    loaded_of (by decide +kernel), ?_⟩
  rintro k ⟨i, hi, -, h⟩
  simp only [List.mem_singleton] at hi
  subst hi
  rw [if_neg (by decide)] at h
  exact C121_outside_false (by decide) (.inr (by decide)) k h

/-- Two nodes with each other's index: where the envelopes of a source are stored depends
on the node they are sent to. -/
theorem C121_swapped_false : (∀ k, EnvelopeLands (fun j => 1 - (j : Int)) 2 [0] 0 k ↔ k = 0) ∧
    ∀ k, EnvelopeLands (fun j => 1 - (j : Int)) 2 [0] 1 k ↔ k = 1 := by
  have h0 : ∀ k, LocalLands (fun j => 1 - (j : Int)) 2 0 k ↔ k = 0 := by
    intro k
    have e : ((setupNode (1 - ((0 : Nat) : Int)) 2).2 : Int) = 1 - ((0 : Nat) : Int) := by decide
    constructor
    · intro h
      cases h with
      | here _ => rfl
      | on hne _ => exact absurd e hne
    · rintro rfl
      exact .here e
  constructor
  · intro k
    unfold EnvelopeLands
    simp [h0]
  · intro k
    unfold EnvelopeLands
    simp

/-! ## C122 -/

/-- As long as fewer answers have a body than the process can have connections, the
scheduler is the leader exactly when the endpoint says so. -/
theorem C122_leader_partial {limit : Nat} {as : List (Option LeaderAnswer)} (h : bodies as < limit) :
    askLeaders limit 0 as = as.map fun a => decide (SaysLeader a) := by
  have key : ∀ (as : List (Option LeaderAnswer)) kept, kept + bodies as < limit →
      askLeaders limit kept as = as.map fun a => decide (SaysLeader a) := by
    intro as
    induction as with
    | nil => intro kept _; rfl
    | cons a as ih =>
      intro kept hk
      have hk' : kept < limit := by omega
      cases a with
      | none =>
        rw [askLeaders, askLeader, if_pos hk']
        have : bodies (none :: as) = bodies as := by unfold bodies; rw [List.countP_cons]; simp
        show false :: askLeaders limit kept as = _
        rw [ih kept (by omega), List.map_cons]
        congr 1
      | some r =>
        rw [askLeaders, askLeader, if_pos hk']
        have hb : bodies (some r :: as) = bodies as + if r.hasBody then 1 else 0 := by
          unfold bodies; rw [List.countP_cons]
        show decide (r.status = 200) :: askLeaders limit (if r.hasBody then kept + 1 else kept) as = _
        rw [ih _ (by rw [hb] at hk; split at hk <;> rename_i hh <;> simp [hh] <;> omega), List.map_cons]
        congr 1
        apply decide_eq_decide.2
        exact ⟨fun h => ⟨r, rfl, h⟩, fun ⟨r', h, h2⟩ => by injection h with h; subst h; exact h2⟩
  exact key as 0 (by omega)

/-- leader, not leader, unreachable, leader -/
example : bodies [some ⟨200, false⟩, some ⟨423, true⟩, none, some ⟨200, false⟩] < 2 ∧
    askLeaders 2 0 [some ⟨200, false⟩, some ⟨423, true⟩, none, some ⟨200, false⟩] = [true, false, false, true] := by
  decide

/-- The answers' bodies are never closed: after as many answers with a body as the process
can have connections, it is never the leader again, although the endpoint says so. -/
theorem C122_bodies_false (limit n : Nat) :
    askLeaders limit 0 (List.replicate (limit + n) (some ⟨200, true⟩)) =
      List.replicate limit true ++ List.replicate n false := by
  have h1 : ∀ n, askLeaders limit limit (List.replicate n (some ⟨200, true⟩)) = List.replicate n false := by
    intro n
    induction n with
    | zero => rfl
    | succ n ih =>
      rw [List.replicate_succ, askLeaders, askLeader, if_neg (by omega)]
      show false :: askLeaders limit limit _ = _
      rw [ih, List.replicate_succ]
  have h2 : ∀ m kept, kept + m = limit → askLeaders limit kept (List.replicate (m + n) (some ⟨200, true⟩)) =
      List.replicate m true ++ List.replicate n false := by
    intro m
    induction m with
    | zero =>
      intro kept hk
      have : kept = limit := by omega
      rw [this, Nat.zero_add, h1]; rfl
    | succ m ih =>
      intro kept hk
      rw [show m + 1 + n = (m + n) + 1 by omega, List.replicate_succ, askLeaders, askLeader, if_pos (by omega)]
      show true :: askLeaders limit (kept + 1) _ = _
      rw [ih (kept + 1) (by omega), List.replicate_succ]; rfl
  exact h2 limit 0 (by omega)

end LogCache
