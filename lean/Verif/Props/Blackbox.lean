import Verif.Spec.Blackbox
import Verif.Proof.Blackbox
import Verif.Proof.Client
import Verif.Props.Client

/-! # The blackbox (C107, C108, C109) -/

namespace LogCache
open Spec
variable {F : Type}

/-! ## Numbers -/

private theorem fmt0_whole (a : Nat) (h : a < 2 ^ 53) : (f64OfInt (a : Int)).fmt0 = dec a := by
  obtain ⟨m, e, h1, hv⟩ := ofNat_exact a h
  rw [h1]
  unfold F64.fmt0
  simp only
  have := mag_eq m e 1
  rw [Nat.mul_one] at this
  rw [roundDiv_unique (k := a) _ (Nat.pow_pos (by omega)) (by rw [this, hv]; norm_num), fmtNat_eq]
  simp

private theorem wrap_small (n : Nat) (h : n < 2 ^ 53) : wrap64 ((n : Int) * 1) = n := by
  unfold wrap64; omega

/-- A rounded quotient of whole numbers, as a number. -/
private theorem quot (n d : Nat) (hn : n < 2 ^ 53) (hdm : d < 2 ^ 53 - 1) (hd : 0 < d) :
    Nearest64 ((n : ℚ) / d) (f64Round false n d) ∧
    (f64Value (f64Round false n d) = 1 ↔ n = d) ∧ (f64Value (f64Round false n d) < 1 ↔ n < d) := by
  have hdq : (0 : ℚ) < d := by exact_mod_cast hd
  have hnq : (n : ℚ) < 9007199254740992 := by exact_mod_cast (show n < 9007199254740992 from hn)
  have hdmq : (d : ℚ) < 9007199254740991 := by exact_mod_cast (show d < 9007199254740991 from hdm)
  have hd1 : (1 : ℚ) ≤ d := by exact_mod_cast hd
  have hn0 : (0 : ℚ) ≤ n := by exact_mod_cast Nat.zero_le n
  have hle : (n : ℚ) / d ≤ n := by rw [div_le_iff₀ hdq]; nlinarith
  obtain ⟨m, e, h1, r⟩ := f64Round_to false n hd (b := 0) (by norm_num) (by norm_num) (by norm_num; linarith)
  have hval : f64Value (f64Round false n d) = (m : ℚ) * 2 ^ e := by
    rw [h1]; simp [f64Value]
  have hfin : IsFinite64 (f64Round false n d) := by rw [h1]; trivial
  refine ⟨⟨f64Round_binary false n hd, hfin, fun y hy _ => ?_⟩, ?_⟩
  · rw [hval]; exact f64Round_nearest false n hd h1 hy
  -- the rounding error is small
  have hone : (f64Round false n d = f64Round false 1 1 → f64Value (f64Round false n d) = 1) := by
    intro h
    rw [h]
    have : f64Round false 1 1 = .fin false (2 ^ 52) (-52) := by decide +kernel
    rw [this]
    norm_num [f64Value]
  have hzero : n = 0 → f64Value (f64Round false n d) = 0 := by
    intro h
    subst h
    unfold f64Round
    rw [if_pos rfl]
    norm_num [f64Value]
  have herr : 0 < n → |f64Value (f64Round false n d) - (n : ℚ) / d| * 9007199254740992 ≤ (n : ℚ) / d ∨
      |f64Value (f64Round false n d) - (n : ℚ) / d| * (d * 2) < 1 := by
    intro hpos
    obtain ⟨m2, e2, hr, hv⟩ := f64Round_value false hpos hd hfin
    simp only [Bool.false_eq_true, if_false, one_mul] at hv
    rw [hv]
    have hnear := hr.near
    generalize |(m2 : ℚ) * 2 ^ e2 - n / d| = z at hnear
    rcases hr.above with h | h
    · right
      rw [h] at hnear
      have htiny : (2 : ℚ) ^ (-1074 : Int) ≤ 2 ^ (-60 : Int) := zpow_le_zpow_right₀ (by norm_num) (by norm_num)
      generalize (2 : ℚ) ^ (-1074 : Int) = w at htiny hnear
      norm_num at htiny
      nlinarith
    · left
      generalize (2 : ℚ) ^ e2 = w at hnear h
      norm_num at h
      linarith
  have key : ∀ v : ℚ, f64Value (f64Round false n d) = v → (n = d → v = 1) ∧ (n < d → v < 1) ∧ (d < n → 1 < v) := by
    intro v hv
    rw [hv] at herr hone hzero
    clear hval hv h1 r hfin
    refine ⟨fun h => ?_, fun h => ?_, fun h => ?_⟩
    · exact hone (f64Round_congr false hd (by omega) (by rw [h]; field_simp))
    · rcases Nat.eq_zero_or_pos n with h0 | hpos
      · rw [hzero h0]; norm_num
      · have hlt : (n : ℚ) + 1 ≤ d := by exact_mod_cast h
        have hq : (n : ℚ) / d * d = n := by field_simp
        generalize (n : ℚ) / d = q at *
        rcases herr hpos with h2 | h2
        · have := (abs_le.1 (le_refl |v - q|)).2
          generalize |v - q| = z at *
          nlinarith
        · have := (abs_le.1 (le_refl |v - q|)).2
          generalize |v - q| = z at *
          nlinarith
    · have hlt : (d : ℚ) + 1 ≤ n := by exact_mod_cast h
      have hq : (n : ℚ) / d * d = n := by field_simp
      generalize (n : ℚ) / d = q at *
      rcases herr (by omega) with h2 | h2
      · have := (abs_le.1 (le_refl |v - q|)).1
        generalize |v - q| = z at *
        by_contra hc
        have : q - 1 ≤ z := by linarith
        nlinarith
      · have := (abs_le.1 (le_refl |v - q|)).1
        generalize |v - q| = z at *
        by_contra hc
        have : q - 1 ≤ z := by linarith
        nlinarith
  obtain ⟨k1, k2, k3⟩ := key _ rfl
  rcases lt_trichotomy n d with h | h | h
  · have := k2 h
    exact ⟨⟨fun h' => absurd h' this.ne, fun h' => absurd h' (by omega)⟩, fun _ => h, fun _ => this⟩
  · have := k1 h
    exact ⟨⟨fun _ => h, fun _ => this⟩, fun h' => absurd this h'.ne, fun h' => absurd h' (by omega)⟩
  · have := k3 h
    exact ⟨⟨fun h' => absurd h' this.ne', fun h' => absurd h' (by omega)⟩, fun h' => absurd h' (not_lt.2 this.le), fun h' => absurd h' (by omega)⟩

/-! ## C107 -/

/-- The window and the distance of the emissions are whole numbers of seconds, `a` and
`b`, of a sensible size. -/
structure WholeSeconds (c : Calculator) (a b : Nat) : Prop where
  window : c.windowInterval = (a : Int) * 1000000000
  emission : c.emissionInterval = (b : Int) * 1000000000
  small : a < 2 ^ 53 - 1 ∧ b < 2 ^ 53
  positive : 0 < b

private theorem expected_round {c : Calculator} {a b : Nat} (h : WholeSeconds c a b) :
    c.expectedSamples = f64Round false a b := by
  have h1 : a < 2 ^ 53 := by have := h.small.1; omega
  unfold Calculator.expectedSamples
  rw [h.window, h.emission, durSeconds_whole a h1, durSeconds_whole b h.small.2, div_whole a b h1 h.small.2 h.positive]

/-- The number of expected samples is the number of emissions that fit into the window,
for any window and distance of whole seconds. -/
theorem C107_expected_partial {c : Calculator} {a b : Nat} (h : WholeSeconds c a b) :
    c.expectedSamples.toInt64 = ((a / b : Nat) : Int) := by
  rw [expected_round h, round_floor a b (by have := h.small.1; omega) h.small.2 h.positive]

/-- With fractions of a second it can be one less: three emissions fit into 300 ms. -/
theorem C107_expected_false : ∃ c : Calculator, c.windowInterval = 3 * c.emissionInterval ∧
    c.expectedSamples.toInt64 = 2 :=
  ⟨⟨1000000000, 300000000, 0, 100000000, []⟩, rfl, by decide +kernel⟩

/-- There is a value exactly when the query gave a matrix with a series, and it is the
float64 nearest to the number of points of the first series divided by the number of
expected samples: 1 when as many arrived as were expected, less than 1 when fewer did. -/
theorem C107_value {c : Calculator} {a b : Nat} (h : WholeSeconds c a b) (hab : b ≤ a)
    (ans : Option (Option (PResult F))) :
    (c.calculate ans = none ↔ ¬ ∃ n, Counted ans n) ∧
    ∀ n, Counted ans n → n < 2 ^ 53 → ∃ x, c.calculate ans = some x ∧
      Nearest64 ((n : ℚ) / ((a / b : Nat) : ℚ)) x ∧ (f64Value x = 1 ↔ n = a / b) ∧ (f64Value x < 1 ↔ n < a / b) := by
  have hpos : 0 < a / b := Nat.div_pos hab h.positive
  have hsm : a / b < 2 ^ 53 - 1 := lt_of_le_of_lt (Nat.div_le_self a b) h.small.1
  constructor
  · unfold Calculator.calculate
    rw [Option.map_eq_none_iff]
    unfold countPoints
    split
    · rename_i s ss
      simp only [reduceCtorEq, false_iff, not_not]
      exact ⟨_, s, ss, rfl, rfl⟩
    · rename_i hne
      simp only [true_iff]
      rintro ⟨n, s, ss, rfl, -⟩
      exact hne s ss rfl
  · rintro n ⟨s, ss, rfl, hn⟩ hn53
    refine ⟨_, rfl, ?_⟩
    simp only
    rw [C107_expected_partial h, wrap_small _ (by omega), hn, div_whole n (a / b) hn53 (by omega) hpos]
    exact quot n (a / b) hn53 hsm hpos

/-- A window shorter than the distance of the emissions has no value that could be
published: not a number without points, infinity with one. -/
theorem C107_short_false {c : Calculator} {a b : Nat} (h : WholeSeconds c a b) (hab : a < b)
    {ans : Option (Option (PResult F))} {n : Nat} (hc : Counted ans n) (hn : n < 2 ^ 53) :
    c.calculate ans = some (if n = 0 then .nan else .inf false) := by
  obtain ⟨s, ss, rfl, hl⟩ := hc
  unfold Calculator.calculate countPoints
  simp only [Option.map_some]
  rw [C107_expected_partial h, Nat.div_eq_of_lt hab, hl]
  obtain ⟨m, e, h1, h2⟩ := ofNat_exact n hn
  rw [h1]
  have h0 : f64OfInt (wrap64 (((0 : Nat) : Int) * 1)) = .fin false 0 0 := by decide +kernel
  rw [h0]
  unfold F64.div
  simp only
  rw [if_pos trivial]
  have h3 : m = 0 ↔ n = 0 := by
    have hp : (0 : ℚ) < 2 ^ e := zpow_pos (by norm_num) e
    constructor
    · rintro rfl
      rw [Nat.cast_zero, zero_mul] at h2
      exact_mod_cast h2.symm
    · rintro rfl
      rw [Nat.cast_zero, mul_eq_zero] at h2
      rcases h2 with h2 | h2
      · exact_mod_cast h2
      · exact absurd h2 hp.ne'
  by_cases hz : n = 0
  · rw [if_pos hz, if_pos (h3.2 hz)]
  · rw [if_neg hz, if_neg fun x => hz (h3.1 x)]
    rfl

/-- A window of ten seconds and emissions every minute. -/
example : WholeSeconds ⟨1000000000, 10000000000, 0, 60000000000, []⟩ 10 60 ∧
    Counted (F := Unit) (some (some (.matrix [⟨[], []⟩]))) 0 :=
  ⟨⟨rfl, rfl, ⟨by decide, by decide⟩, by decide⟩, _, _, rfl, rfl⟩

/-- The query: the test metric of the source in the window that ends a lag before now,
down to the grid of the sampling. -/
theorem C107_query {c : Calculator} {a b : Nat} (h : WholeSeconds c a b) (hs : 0 < c.sampleInterval) (now : Int) :
    (c.request now).query = "blackbox_test_metric{source_id=\"".toList ++ c.sourceId ++ "\"}[".toList ++ dec a ++ "s]".toList ∧
    ∃ t, LastGrid c.sampleInterval (now - c.windowLag) t ∧ (c.request now).time = formatClientTime t := by
  constructor
  · show c.queryText = _
    unfold Calculator.queryText
    have h1 : a < 2 ^ 53 := by have := h.small.1; omega
    rw [h.window, durSeconds_whole a h1, fmt0_whole a h1]
    rfl
  · refine ⟨c.queryTime now, ?_, rfl⟩
    unfold Calculator.queryTime truncTime
    generalize c.sampleInterval = d at *
    generalize now - c.windowLag = t
    have e1 := Int.emod_nonneg (t + 62135596800000000000) (by omega : d ≠ 0)
    have e2 := Int.emod_lt_of_pos (t + 62135596800000000000) hs
    refine ⟨?_, by omega, by omega⟩
    have : t - (t + 62135596800000000000) % d + 62135596800000000000 =
        (t + 62135596800000000000) - (t + 62135596800000000000) % d := by omega
    show d ∣ _
    rw [this]
    exact Int.dvd_self_sub_emod

/-- More than everything: a range selector takes both ends of its window, so that in a
window that is a multiple of the distance one more emission falls than is expected, and
the value exceeds 1. -/
theorem C107_window_false {c : Calculator} {a b : Nat} (h : WholeSeconds c a b) (ha : 0 < a) (hd : b ∣ a) {t : Int}
    (ht : OnGrid c.emissionInterval t) (times : List Int) (hn : times.Nodup)
    (hm : ∀ x, x ∈ times ↔ OnGrid c.emissionInterval x ∧ t - c.windowInterval ≤ x ∧ x ≤ t)
    {ans : Option (Option (PResult F))} (hc : Counted ans times.length) :
    times.length = a / b + 1 ∧ ∃ x, c.calculate ans = some x ∧ 1 < f64Value x := by
  have hb := h.positive
  obtain ⟨k, rfl⟩ := hd
  have hk : b * k / b = k := Nat.mul_div_cancel_left k hb
  have hkpos : 0 < k := Nat.pos_of_mul_pos_left ha
  have hlen : times.length = k + 1 := by
    have hp : times.Perm ((List.range (k + 1)).map fun (i : Nat) => t - c.emissionInterval * i) := by
      refine (List.perm_ext_iff_of_nodup hn ?_).2 fun x => ?_
      · refine List.Nodup.map ?_ List.nodup_range
        intro i j hij
        simp only at hij
        rw [h.emission] at hij
        have : ((b : Int) * 1000000000) * i = ((b : Int) * 1000000000) * j := by omega
        have := Int.eq_of_mul_eq_mul_left (by positivity) this
        exact_mod_cast this
      · rw [hm]
        simp only [List.mem_map, List.mem_range]
        have hw : c.windowInterval = c.emissionInterval * k := by
          rw [h.window, h.emission]; push_cast; ring
        have hE : 0 < c.emissionInterval := by rw [h.emission]; positivity
        rw [hw]
        generalize c.emissionInterval = E at *
        constructor
        · rintro ⟨hg, h1, h2⟩
          obtain ⟨z, hz⟩ := Int.dvd_sub ht hg
          have hz' : t - x = E * z := by omega
          have z0 : 0 ≤ z := by
            by_contra hneg
            have : E * z < 0 := Int.mul_neg_of_pos_of_neg hE (by omega)
            omega
          have z1 : z ≤ k := by
            by_contra hgt
            have : E * k < E * z := Int.mul_lt_mul_of_pos_left (by omega) hE
            omega
          refine ⟨z.toNat, by omega, ?_⟩
          rw [Int.toNat_of_nonneg z0]; omega
        · rintro ⟨i, hi, rfl⟩
          have hi0 : 0 ≤ E * (i : Int) := Int.mul_nonneg hE.le (by omega)
          have hi1 : E * (i : Int) ≤ E * k := Int.mul_le_mul_of_nonneg_left (by omega) hE.le
          refine ⟨?_, by omega, by omega⟩
          show E ∣ _
          have : t - E * i + 62135596800000000000 = (t + 62135596800000000000) - E * i := by omega
          rw [this]
          exact Int.dvd_sub ht (Int.dvd_mul_right _ _)
    rw [hp.length_eq]; simp
  rw [hk]
  refine ⟨hlen, ?_⟩
  have hkb : k < 2 ^ 53 - 1 := by
    have := h.small.1
    have : k ≤ b * k := Nat.le_mul_of_pos_left k hb
    omega
  obtain ⟨x, h1, -, h2, h3⟩ := (C107_value h (Nat.le_mul_of_pos_right b hkpos) ans).2 _ hc (by omega)
  refine ⟨x, h1, ?_⟩
  rw [hk] at h2 h3
  rcases lt_trichotomy (f64Value x) 1 with hx | hx | hx
  · have := h3.1 hx; omega
  · have := h2.1 hx; omega
  · exact hx

/-- The blackbox of the tests: 10 minutes, one emission per second, 597 points. -/
example : WholeSeconds ⟨600000000000, 600000000000, 900000000000, 1000000000, "s".toList⟩ 600 1 ∧
    Counted (some (some (.matrix [⟨[], List.replicate 597 (⟨[], 0⟩ : PPoint Nat)⟩]))) 597 :=
  ⟨⟨rfl, rfl, by decide, by decide⟩, _, _, rfl, List.length_replicate⟩

/-! ## C108 -/

private theorem uptime_young (info : HttpAns Str) :
    (0 ≤ (vmUptime info).1 ∧ (vmUptime info).1 < 600) ↔ YoungVm info := by
  obtain ⟨h1, h2⟩ := C51_uptime info
  constructor
  · rintro ⟨a, b⟩
    cases hok : (vmUptime info).2 with
    | false => rw [h2 hok] at a; omega
    | true =>
      obtain ⟨s, e1, e2⟩ := (h1 (vmUptime info).1).1 (by rw [← hok])
      exact ⟨s, _, e1, e2, a, b⟩
  · rintro ⟨s, n, e1, e2, a, b⟩
    rw [(h1 n).2 ⟨s, e1, e2⟩]
    exact ⟨a, b⟩

/-- With the HTTP checks enabled a round publishes exactly what it measured, under its
source id, unless it measured nothing or the VM is known to be young; it never crashes. -/
theorem C108_published_partial (c : Calculator) (g h : Option (Option (PResult F))) (info : HttpAns Str) :
    (∀ id ms, blackboxRound c true g h info = .sent id ms →
      id = c.sourceId ∧ ¬ YoungVm info ∧ ms ≠ [] ∧
      ∀ name x, (name, x) ∈ ms ↔ Measured (c.calculate g) (c.calculate h) name x) ∧
    (blackboxRound c true g h info = .nothing ↔
      YoungVm info ∨ (c.calculate g = none ∧ c.calculate h = none)) ∧
    blackboxRound c true g h info ≠ .crash := by
  have hy := uptime_young info
  unfold blackboxRound
  simp only [if_true]
  generalize c.calculate g = x1
  generalize c.calculate h = x2
  unfold emitMeasured Measured
  simp only [← hy]
  generalize "blackbox.grpc_reliability".toList = n1
  generalize "blackbox.http_reliability".toList = n2
  by_cases hY : 0 ≤ (vmUptime info).1 ∧ (vmUptime info).1 < 600
  · rw [if_pos hY]
    simp [hY]
  · rw [if_neg hY]
    cases x1 <;> cases x2 <;> simp only [List.nil_append, List.append_nil, List.cons_append, if_true, if_false, hY,
      reduceCtorEq, Published.sent.injEq, List.cons_ne_self, ne_eq, not_false_eq_true, and_self, and_false, false_and,
      iff_true, false_iff, not_true_eq_false, false_implies, implies_true, and_true, true_and, false_or, or_false]
    all_goals
      rintro id ms ⟨rfl, rfl⟩
      refine ⟨rfl, by simp, fun name x => ?_⟩
      simp [@eq_comm _ x]

/-- Without them (`CF_BLACKBOX_ENABLED` unset, the default) the program crashes with its
first measurement. -/
theorem C108_disabled_false (c : Calculator) (g h : Option (Option (PResult F))) (info : HttpAns Str) {n : Nat}
    (hg : Counted g n) : blackboxRound c false g h info = .crash := by
  obtain ⟨s, ss, rfl, -⟩ := hg
  rfl

/-- A young VM, and answers on which both measurements are made. -/
example : YoungVm (.resp 200 (some "599".toList)) ∧ ¬ YoungVm (.resp 200 (some "600".toList)) := by
  constructor
  · exact (uptime_young _).1 (by decide)
  · rw [← uptime_young]; decide

/-! ## C109 -/

private theorem trunc_grid {d : Int} (hd : 0 < d) (t : Int) : LastGrid d t (truncTime d t) := by
  unfold truncTime
  have e1 := Int.emod_nonneg (t + 62135596800000000000) (by omega : d ≠ 0)
  have e2 := Int.emod_lt_of_pos (t + 62135596800000000000) hd
  refine ⟨?_, by omega, by omega⟩
  have : t - (t + 62135596800000000000) % d + 62135596800000000000 =
      (t + 62135596800000000000) - (t + 62135596800000000000) % d := by omega
  show d ∣ _
  rw [this]
  exact Int.dvd_self_sub_emod

private theorem loop_get (d : Int) (ticks : List Int) : ∀ (last : Option Int) (i : Nat) (h : i < ticks.length),
    (emitLoop d last ticks)[i]? = some (truncTime d ticks[i],
      match (if i = 0 then last else ticks[i - 1]?.map (truncTime d)) with
      | none => false
      | some l => decide (l + d ≠ truncTime d ticks[i])) := by
  induction ticks with
  | nil => intro _ i h; simp at h
  | cons now rest ih =>
    intro last i h
    unfold emitLoop
    cases i with
    | zero => rfl
    | succ i =>
      have hi : i < rest.length := by simpa using h
      simp only [List.getElem?_cons_succ, List.getElem_cons_succ]
      rw [ih _ i hi]
      cases i with
      | zero => rfl
      | succ j => simp

private theorem loop_length (d : Int) (ticks : List Int) : ∀ last, (emitLoop d last ticks).length = ticks.length := by
  induction ticks with
  | nil => intro _; rfl
  | cons now rest ih => intro last; unfold emitLoop; simp only [List.length_cons]; rw [ih]

/-- One test metric is emitted per tick, at the last time of the grid, and there is a warning
exactly for those whose timestamp is not that of the one before plus the distance of the
emissions. -/
theorem C109_emissions {d : Int} (hd : 0 < d) (ticks : List Int) :
    (emitLoop d none ticks).length = ticks.length ∧
    (∀ (i : Nat) t w, (emitLoop d none ticks)[i]? = some (t, w) → ∃ now, ticks[i]? = some now ∧ LastGrid d now t) ∧
    (∀ t w, (emitLoop d none ticks)[0]? = some (t, w) → w = false) ∧
    ∀ (i : Nat) t w t' w', (emitLoop d none ticks)[i]? = some (t, w) → (emitLoop d none ticks)[i + 1]? = some (t', w') →
      (w' = true ↔ t' ≠ t + d) := by
  have hlen := loop_length d ticks none
  have hlt : ∀ {i : Nat} {p : Int × Bool}, (emitLoop d none ticks)[i]? = some p → i < ticks.length := fun h => by
    rw [← hlen]; exact (List.getElem?_eq_some_iff.1 h).1
  refine ⟨hlen, fun i t w h => ?_, fun t w h => ?_, fun i t w t' w' h h' => ?_⟩
  · have hi := hlt h
    rw [loop_get d ticks none i hi] at h
    injection h with h
    injection h with h1 h2
    exact ⟨ticks[i], List.getElem?_eq_getElem hi, h1 ▸ trunc_grid hd _⟩
  · rw [loop_get d ticks none 0 (hlt h)] at h
    injection h with h
    injection h with h1 h2
    exact h2.symm
  · have hi := hlt h
    have hi' := hlt h'
    rw [loop_get d ticks none i hi] at h
    rw [loop_get d ticks none (i + 1) hi'] at h'
    injection h with h
    injection h with h1 h2
    injection h' with h'
    injection h' with h1' h2'
    simp only [Nat.add_eq_zero_iff, Nat.one_ne_zero, and_false, if_false, Nat.add_sub_cancel] at h2'
    rw [List.getElem?_eq_getElem (by omega)] at h2'
    simp only [Option.map_some] at h2'
    rw [← h2', decide_eq_true_eq, ← h1, ← h1']
    exact ne_comm

private theorem attempts_spec (accept : Nat → Bool) : ∀ (k i : Nat),
    ((emitAttempts accept k i).2 = true ↔ ∃ j, i ≤ j ∧ j < i + k ∧ accept j = true) ∧
    ((emitAttempts accept k i).2 = true → ∃ n, (emitAttempts accept k i).1 = n + 1 ∧ accept n = true ∧
      ∀ j, i ≤ j → j < n → accept j = false) ∧
    ((emitAttempts accept k i).2 = false → (emitAttempts accept k i).1 = i + k) := by
  intro k
  induction k with
  | zero =>
    intro i
    refine ⟨⟨fun h => by simp [emitAttempts] at h, fun ⟨j, h1, h2, _⟩ => by omega⟩, fun h => by simp [emitAttempts] at h, fun _ => rfl⟩
  | succ k ih =>
    intro i
    unfold emitAttempts
    cases ha : accept i with
    | true =>
      refine ⟨⟨fun _ => ⟨i, by omega, by omega, ha⟩, fun _ => rfl⟩, fun _ => ⟨i, rfl, ha, fun j h1 h2 => by omega⟩, fun h => by simp at h⟩
    | false =>
      obtain ⟨h1, h2, h3⟩ := ih (i + 1)
      simp only [Bool.false_eq_true, if_false]
      refine ⟨?_, fun h => ?_, fun h => by rw [h3 h]; omega⟩
      · rw [h1]
        constructor
        · rintro ⟨j, a, b, c⟩; exact ⟨j, by omega, by omega, c⟩
        · rintro ⟨j, a, b, c⟩
          refine ⟨j, ?_, by omega, c⟩
          rcases Nat.eq_or_lt_of_le a with e | e
          · subst e; rw [ha] at c; cases c
          · omega
      · obtain ⟨n, e1, e2, e3⟩ := h2 h
        refine ⟨n, e1, e2, fun j a b => ?_⟩
        rcases Nat.eq_or_lt_of_le a with e | e
        · subst e; exact ha
        · exact e3 j e b

/-- An emission is tried up to five times and stops with the first success. -/
theorem C109_attempts_partial (accept : Nat → Bool) :
    ((emitTest accept).delivered = true ↔ ∃ j, j < 5 ∧ accept j = true) ∧
    ((emitTest accept).delivered = true → ∃ n, (emitTest accept).attempts = n + 1 ∧ accept n = true ∧
      ∀ j, j < n → accept j = false) ∧
    ((emitTest accept).delivered = false → (emitTest accept).attempts = 5) := by
  obtain ⟨h1, h2, h3⟩ := attempts_spec accept 5 0
  refine ⟨?_, fun h => ?_, fun h => h3 h⟩
  · refine h1.trans ⟨fun ⟨j, _, b, c⟩ => ⟨j, by omega, c⟩, fun ⟨j, b, c⟩ => ⟨j, by omega, by omega, c⟩⟩
  · obtain ⟨n, e1, e2, e3⟩ := h2 h
    exact ⟨n, e1, e2, fun j b => e3 j (by omega) b⟩

/-- A failed emission is never logged. -/
theorem C109_silent_false (accept : Nat → Bool) : (emitTest accept).logged = false ∧
    ((∀ j, accept j = false) → (emitTest accept).delivered = false) := by
  refine ⟨rfl, fun h => ?_⟩
  cases hd : (emitTest accept).delivered with
  | false => rfl
  | true =>
    obtain ⟨j, -, hj⟩ := (C109_attempts_partial accept).1.1 hd
    rw [h j] at hj; cases hj

/-- No sample is ever reported as missing: for a query at any time after the expected
number of milliseconds since 1970 no time is looked for, whatever arrived. -/
theorem C109_missing_false {c : Calculator} {a b : Nat} (h : WholeSeconds c a b) (t : Int) (times : List Str)
    (ht : (a : Int) * 1000000 ≤ t) : c.missing t times = [] := by
  have h2 : ¬ t.tdiv 1000000 < c.expectedSamples.toInt64 := by
    rw [C107_expected_partial h, Int.tdiv_eq_ediv_of_nonneg (by omega)]
    have h3 : a / b ≤ a := Nat.div_le_self a b
    have h4 : (a : Int) ≤ t / 1000000 := (Int.le_ediv_iff_mul_le (by omega)).2 ht
    have h5 : ((a / b : Nat) : Int) ≤ (a : Int) := by exact_mod_cast h3
    omega
  unfold Calculator.missing Calculator.expectedTimes
  simp only
  rw [if_neg h2]
  rfl

/-- Three ticks, the second of them late. -/
example : emitLoop 10 none [5, 16, 38] = [(0, false), (10, false), (30, true)] := by decide

end LogCache
