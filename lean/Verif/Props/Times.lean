import Verif.Proof.Times

/-! # C96 for dates and durations -/

namespace LogCache
open Spec

/-- A date is read as the time it means: counting days in the Gregorian calendar, in
every time zone, to the nanosecond. -/
theorem C96_date {s : Str} {t : Int} (h : DateText 9 s t) : parseTime (parseRfc3339 9) s = some t := by
  have hp := (rfc3339_iff (by omega) s t).2 h
  obtain ⟨c, ys, mos, ds, hs, mis, secs, f, z, ns, off, hs0, d1, _⟩ := h
  have : parseFloat s = none := by
    rw [hs0]
    simp only [List.append_assoc, List.cons_append]
    exact parseFloat_none d1.1 (by decide) (by decide) (by decide) (by decide)
  unfold parseTime
  rw [this]
  exact hp

example : DateText 9 "2019-05-15T17:00:00.25+02:00".toList 1557932400250000000 :=
  (rfc3339_iff (by omega) _ _).1 (by decide +kernel)
example : DateText 9 "2024-02-29T23:59:59Z".toList 1709251199000000000 :=
  (rfc3339_iff (by omega) _ _).1 (by decide +kernel)

/-- What is neither a number nor a date is rejected, such as the 29th of February of 2100. -/
theorem C96_date_only (s : Str) : parseTime (parseRfc3339 9) s = none ↔
    parseFloat s = none ∧ ∀ t, ¬ DateText 9 s t := by
  unfold parseTime
  cases h : parseFloat s with
  | some x => simp
  | none =>
    simp only [true_and]
    constructor
    · intro hn t ht
      rw [(rfc3339_iff (by omega) s t).2 ht] at hn
      cases hn
    · intro hn
      cases hp : parseRfc3339 9 s with
      | none => rfl
      | some t => exact absurd ((rfc3339_iff (by omega) s t).1 hp) (hn t)

example : parseTime (parseRfc3339 9) "2100-02-29T00:00:00Z".toList = none := by decide +kernel

/-- A time in another zone is the same time: an hour later on the clock, an hour further
east. -/
example : parseRfc3339 9 "2019-12-31T23:30:00Z".toList = parseRfc3339 9 "2020-01-01T00:30:00+01:00".toList := by
  decide +kernel

theorem promDuration_eq {s : Str} {d : Nat} (h : DurationText s d) (hd : d < 2 ^ 63) : promDuration s = some (d : Int) := by
  obtain ⟨ds, n, unit, u, rfl, hn, hu, rfl⟩ := h
  obtain ⟨c, t, hc, hc1, _⟩ := unit_head hu
  have ht := takeWhile_digits (numeral_all hn) unit (by
    intro c' t' h
    rw [hc] at h
    injection h with h _
    rw [← h]; exact hc1)
  unfold promDuration
  rw [ht.1, ht.2, (parseDigits_iff _ _).2 hn, (durationUnit_iff _ _).2 hu]
  simp only [Option.some.injEq]
  have hu6 : ∃ k, u = 1000000 * k ∧ 0 < k ∧ u / 1000000 = k := by
    rcases hu with ⟨_, rfl⟩ | ⟨_, rfl⟩ | ⟨_, rfl⟩ | ⟨_, rfl⟩ | ⟨_, rfl⟩ | ⟨_, rfl⟩ | ⟨_, rfl⟩
    · exact ⟨1, rfl, by decide, rfl⟩
    · exact ⟨1000, rfl, by decide, rfl⟩
    · exact ⟨60000, rfl, by decide, rfl⟩
    · exact ⟨3600000, rfl, by decide, rfl⟩
    · exact ⟨86400000, rfl, by decide, rfl⟩
    · exact ⟨604800000, rfl, by decide, rfl⟩
    · exact ⟨31536000000, rfl, by decide, rfl⟩
  obtain ⟨k, rfl, hk, hk2⟩ := hu6
  rw [hk2]
  have h1 : n * 1000000 ≤ n * (1000000 * k) := Nat.mul_le_mul_left _ (Nat.le_mul_of_pos_right _ hk)
  have hmin : min n (2 ^ 63 - 1) = n := by omega
  rw [hmin]
  have e1 : wrap64 (((n : Nat) : Int) * 1000000) = (n : Int) * 1000000 := by
    unfold wrap64
    omega
  rw [e1]
  have e2 : (n : Int) * 1000000 * (k : Int) = ((n * (1000000 * k) : Nat) : Int) := by
    push_cast
    ring
  rw [e2]
  have e3 : ∀ w : Nat, w < 2 ^ 63 → wrap64 ((w : Nat) : Int) = (w : Int) := by
    intro w hw
    unfold wrap64
    omega
  rw [e3 _ hd]

/-- A duration is read as the time it means if that fits in 64 bits of nanoseconds, about
292 years. -/
theorem C96_duration {s : Str} {d : Nat} (h : DurationText s d) (hd : d < 2 ^ 63) :
    parseStep promDuration s = some (d : Int) := by
  have hp := promDuration_eq h hd
  obtain ⟨ds, n, unit, u, rfl, hn, hu, rfl⟩ := h
  obtain ⟨c, t, rfl, h1, h2, h3, h4⟩ := unit_head hu
  unfold parseStep
  rw [parseFloat_none hn h1 h2 h3 h4]
  exact hp

example : DurationText "90m".toList 5400000000000 :=
  ⟨"90".toList, 90, "m".toList, _, rfl, (parseDigits_iff _ _).1 rfl, .inr (.inr (.inl ⟨rfl, rfl⟩)), rfl⟩

/-- A longer duration is not rejected, as a step written as a number would be: 300 years
are read as a negative step, and 585 years as 21 days. -/
theorem C96_duration_false :
    DurationText "300y".toList (300 * (365 * 24 * 60 * 60 * 10 ^ 9)) ∧
    parseStep promDuration "300y".toList = some (-8985944073709551616) ∧
    parseStep promDuration "585y".toList = some 1815926290448384 ∧
    parseStep promDuration "9460800000".toList = none := by
  refine ⟨⟨"300".toList, 300, "y".toList, _, rfl, (parseDigits_iff _ _).1 rfl,
    .inr (.inr (.inr (.inr (.inr (.inr ⟨rfl, rfl⟩))))), rfl⟩, ?_, ?_, ?_⟩
  · have : parseFloat "300y".toList = none := by decide +kernel
    unfold parseStep
    rw [this]
    decide +kernel
  · have : parseFloat "585y".toList = none := by decide +kernel
    unfold parseStep
    rw [this]
    decide +kernel
  · decide +kernel

/-- Everything else is rejected. -/
theorem C96_duration_only (s : Str) : promDuration s = none ↔ ∀ d, ¬ DurationText s d := by
  constructor
  · rintro h d ⟨ds, n, unit, u, rfl, hn, hu, rfl⟩
    obtain ⟨c, t, hc, hc1, _⟩ := unit_head hu
    have ht := takeWhile_digits (numeral_all hn) unit (by
      intro c' t' h
      rw [hc] at h
      injection h with h _
      rw [← h]; exact hc1)
    unfold promDuration at h
    rw [ht.1, ht.2, (parseDigits_iff _ _).2 hn, (durationUnit_iff _ _).2 hu] at h
    cases h
  · intro h
    unfold promDuration
    split
    · rename_i n u h1 h2
      exact absurd ⟨_, n, _, u, (List.takeWhile_append_dropWhile (p := isDecimal)).symm, (parseDigits_iff _ _).1 h1,
        (durationUnit_iff _ _).1 h2, rfl⟩ (h (n * u))
    · rfl

end LogCache
