import Verif.Model.Times
import Verif.Spec.Times
import Verif.Proof.FloatText

/-! # The readers of dates and durations are correct -/

namespace LogCache
open Spec

theorem isLeapYear_iff (y : Nat) : isLeapYear y = true ↔ LeapYear y := by
  unfold isLeapYear LeapYear
  simp only [Bool.and_eq_true, Bool.or_eq_true, beq_iff_eq, bne_iff_ne, ne_eq]
  omega

theorem daysSinceZero_step (y : Nat) : daysSinceZero (y + 1) = daysSinceZero y + yearLength y := by
  unfold daysSinceZero yearLength
  by_cases h : LeapYear y
  · rw [if_pos h]
    unfold LeapYear at h
    simp only
    omega
  · rw [if_neg h]
    unfold LeapYear at h
    simp only
    omega

theorem daysSinceZero_eq (y : Nat) : daysSinceZero y = daysToYear y + daysSinceZero 0 := by
  induction y with
  | zero => simp [daysToYear]
  | succ y ih => rw [daysSinceZero_step, ih, daysToYear]; omega

theorem epoch_days : daysToYear 1970 + daysSinceZero 0 = 865259 := by
  rw [← daysSinceZero_eq]; rfl

theorem daysInMonth_eq {m : Nat} (h1 : 1 ≤ m) (h2 : m ≤ 12) (y : Nat) : daysInMonth m y = monthLength y m := by
  unfold daysInMonth monthLength
  have hl := isLeapYear_iff y
  by_cases h : LeapYear y
  · have := hl.2 h
    simp only [this, h, if_true, and_true]
    have : ∀ k : Fin 13, 1 ≤ k.val → (if k.val = 2 then 29 else daysBeforeMonth.getD k.val 0 - daysBeforeMonth.getD (k.val - 1) 0) =
        (if k.val = 2 then 29 else if k.val = 4 ∨ k.val = 6 ∨ k.val = 9 ∨ k.val = 11 then 30 else 31) := by decide
    exact this ⟨m, by omega⟩ h1
  · have : isLeapYear y = false := by
      cases hb : isLeapYear y
      · rfl
      · exact absurd (hl.1 hb) h
    simp only [this, h, if_false, Bool.false_eq_true, and_false]
    have : ∀ k : Fin 13, 1 ≤ k.val → (daysBeforeMonth.getD k.val 0 - daysBeforeMonth.getD (k.val - 1) 0) =
        (if k.val = 2 then 28 else if k.val = 4 ∨ k.val = 6 ∨ k.val = 9 ∨ k.val = 11 then 30 else 31) := by decide
    exact this ⟨m, by omega⟩ h1

theorem daysBefore_eq {m : Nat} (h1 : 1 ≤ m) (h2 : m ≤ 12) (y : Nat) :
    daysBeforeMonth.getD (m - 1) 0 + (if isLeapYear y ∧ 3 ≤ m then 1 else 0) = daysToMonthEnd y (m - 1) := by
  have hl := isLeapYear_iff y
  by_cases h : LeapYear y
  · have := hl.2 h
    obtain rfl | rfl | rfl | rfl | rfl | rfl | rfl | rfl | rfl | rfl | rfl | rfl :
      m = 1 ∨ m = 2 ∨ m = 3 ∨ m = 4 ∨ m = 5 ∨ m = 6 ∨ m = 7 ∨ m = 8 ∨ m = 9 ∨ m = 10 ∨ m = 11 ∨ m = 12 := by omega
    all_goals simp [daysBeforeMonth, daysToMonthEnd, monthLength, this, h]
  · have : isLeapYear y = false := by
      cases hb : isLeapYear y
      · rfl
      · exact absurd (hl.1 hb) h
    obtain rfl | rfl | rfl | rfl | rfl | rfl | rfl | rfl | rfl | rfl | rfl | rfl :
      m = 1 ∨ m = 2 ∨ m = 3 ∨ m = 4 ∨ m = 5 ∨ m = 6 ∨ m = 7 ∨ m = 8 ∨ m = 9 ∨ m = 10 ∨ m = 11 ∨ m = 12 := by omega
    all_goals simp [daysBeforeMonth, daysToMonthEnd, monthLength, this, h]

/-- The seconds of a date are those found by counting days. -/
theorem unixDate_eq (c : DateTime) (h : c.Valid) :
    unixDate c.year c.month c.day c.hour c.minute c.second = c.seconds := by
  obtain ⟨h1, h2, _⟩ := h
  unfold unixDate DateTime.seconds
  have e1 := daysSinceZero_eq c.year
  have e2 := epoch_days
  have e3 := daysBefore_eq h1 h2 c.year
  simp only
  generalize daysSinceZero c.year = a at *
  generalize daysSinceZero 0 = z at *
  generalize daysToYear c.year = a' at *
  generalize daysToYear 1970 = b at *
  generalize daysToMonthEnd c.year (c.month - 1) = m at *
  generalize daysBeforeMonth.getD (c.month - 1) 0 = m' at *
  generalize (if isLeapYear c.year = true ∧ 3 ≤ c.month then 1 else 0) = l at *
  push_cast
  omega

theorem readNum_iff {k : Nat} (s : Str) (n : Nat) (r : Str) :
    readNum k s = some (n, r) ↔ ∃ d, s = d ++ r ∧ Digits k d n := by
  unfold readNum
  constructor
  · intro h
    split at h
    · cases h
    · rename_i hl
      cases hp : parseDigits (s.take k) with
      | none => rw [hp] at h; cases h
      | some m =>
        rw [hp] at h
        simp only [Option.map_some, Option.some.injEq, Prod.mk.injEq] at h
        obtain ⟨rfl, rfl⟩ := h
        exact ⟨s.take k, (List.take_append_drop k s).symm, (parseDigits_iff _ _).1 hp, by
          rw [List.length_take]; omega⟩
  · rintro ⟨d, rfl, hd, hl⟩
    rw [if_neg (by rw [List.length_append]; omega), ← hl, List.take_left, List.drop_left, (parseDigits_iff _ _).2 hd]
    rfl

theorem readChar_iff (c : Char) (s r : Str) : readChar c s = some r ↔ s = c :: r := by
  cases s with
  | nil => simp [readChar]
  | cons x s =>
    show (if x = c then some s else none) = some r ↔ _
    by_cases h : x = c
    · rw [if_pos h, h]
      simp
    · rw [if_neg h]
      simp [h]

theorem readOffset_iff (s : Str) (off : Int) : readOffset s = some off ↔
    ∃ h m hv mv, s = h ++ ':' :: m ∧ Digits 2 h hv ∧ Digits 2 m mv ∧ hv < 24 ∧ mv < 60 ∧
      off = (hv * 3600 + mv * 60 : Nat) := by
  unfold readOffset
  constructor
  · intro hh
    simp only [Option.bind_eq_bind, Option.bind_eq_some_iff, Prod.exists] at hh
    obtain ⟨hv, s1, h1, s2, h2, mv, s3, h3, h4⟩ := hh
    obtain ⟨h, rfl, d1⟩ := (readNum_iff _ _ _).1 h1
    obtain rfl := (readChar_iff _ _ _).1 h2
    obtain ⟨m, rfl, d2⟩ := (readNum_iff _ _ _).1 h3
    split at h4
    · rename_i hc
      obtain ⟨c1, c2, rfl⟩ := hc
      injection h4 with h4
      exact ⟨h, m, hv, mv, by simp, d1, d2, c1, c2, h4.symm⟩
    · cases h4
  · rintro ⟨h, m, hv, mv, rfl, d1, d2, c1, c2, rfl⟩
    simp only [Option.bind_eq_bind, Option.bind_eq_some_iff, Prod.exists]
    refine ⟨hv, _, (readNum_iff _ _ _).2 ⟨h, rfl, d1⟩, m, (readChar_iff _ _ _).2 rfl, mv, [],
      (readNum_iff _ _ _).2 ⟨m, by simp, d2⟩, ?_⟩
    rw [if_pos ⟨c1, c2, rfl⟩]

theorem readZone_iff (s : Str) (off : Int) : readZone s = some off ↔ ZoneText s off := by
  unfold ZoneText
  constructor
  · intro h
    unfold readZone at h
    split at h
    · injection h with h
      exact .inl ⟨rfl, h.symm⟩
    · obtain ⟨a, b, hv, mv, rfl, d1, d2, c1, c2, rfl⟩ := (readOffset_iff _ _).1 h
      exact .inr ⟨'+', a, b, hv, mv, rfl, d1, d2, c1, c2, .inl ⟨rfl, rfl⟩⟩
    · rw [Option.map_eq_some_iff] at h
      obtain ⟨x, h, rfl⟩ := h
      obtain ⟨a, b, hv, mv, rfl, d1, d2, c1, c2, rfl⟩ := (readOffset_iff _ _).1 h
      exact .inr ⟨'-', a, b, hv, mv, rfl, d1, d2, c1, c2, .inr ⟨rfl, rfl⟩⟩
    · cases h
  · rintro (⟨rfl, rfl⟩ | ⟨c, a, b, hv, mv, rfl, d1, d2, c1, c2, ⟨rfl, rfl⟩ | ⟨rfl, rfl⟩⟩)
    · rfl
    · show readOffset _ = _
      exact (readOffset_iff _ _).2 ⟨a, b, hv, mv, rfl, d1, d2, c1, c2, rfl⟩
    · show (readOffset _).map _ = _
      rw [(readOffset_iff _ _).2 ⟨a, b, hv, mv, rfl, d1, d2, c1, c2, rfl⟩]
      rfl

theorem zone_head {s : Str} {off : Int} (h : ZoneText s off) : ∀ c t, s = c :: t → isDecimal c = false ∧ c ≠ '.' := by
  rintro c t rfl
  rcases h with ⟨h, _⟩ | ⟨c', _, _, _, _, h, _, _, _, _, ⟨rfl, _⟩ | ⟨rfl, _⟩⟩
  all_goals
    injection h with h _
    subst h
    decide

theorem numeral_all {s : Str} {n : Nat} (h : Numeral s n) : AllDigits s := numeral_head h

theorem readSubsec_iff {max : Nat} (hm : max ≤ 9) (s : Str) (ns : Nat) (r : Str)
    (hr : ∀ c t, r = c :: t → isDecimal c = false ∧ c ≠ '.') :
    readSubsec max s = some (ns, r) ↔ ∃ f, s = f ++ r ∧ FractionText max f ns := by
  constructor
  · intro h
    unfold readSubsec at h
    split at h
    · rename_i s
      simp only at h
      split at h
      · rename_i hl
        cases hp : parseDigits (s.takeWhile isDecimal) with
        | none => rw [hp] at h; cases h
        | some m =>
          rw [hp] at h
          simp only [Option.map_some, Option.some.injEq, Prod.mk.injEq] at h
          obtain ⟨rfl, rfl⟩ := h
          refine ⟨'.' :: s.takeWhile isDecimal, by simp, .inr ⟨_, m, rfl, (parseDigits_iff _ _).1 hp, hl, ?_⟩⟩
          rw [Nat.mul_assoc, ← Nat.pow_add]
          congr 2
          omega
      · cases h
    · injection h with h
      simp only [Prod.mk.injEq] at h
      obtain ⟨rfl, rfl⟩ := h
      exact ⟨[], rfl, .inl ⟨rfl, rfl⟩⟩
  · rintro ⟨f, rfl, ⟨rfl, rfl⟩ | ⟨ds, n, rfl, hn, hl, he⟩⟩
    · unfold readSubsec
      split
      · rename_i s heq
        exact absurd rfl (hr '.' s heq).2
      · rfl
    · have ht := takeWhile_digits (numeral_all hn) r (fun c t h => (hr c t h).1)
      show readSubsec max ('.' :: (ds ++ r)) = _
      unfold readSubsec
      simp only
      rw [ht.1, ht.2, if_pos hl, (parseDigits_iff _ _).2 hn]
      simp only [Option.map_some, Option.some.injEq, Prod.mk.injEq, and_true]
      have h2 : ns * 10 ^ ds.length = n * 10 ^ (9 - ds.length) * 10 ^ ds.length := by
        rw [he, Nat.mul_assoc, ← Nat.pow_add]
        congr 2
        omega
      exact (Nat.eq_of_mul_eq_mul_right (Nat.pow_pos (by omega)) h2).symm

/-- A date is read exactly if it is one by RFC 3339, as the time it means. -/
theorem rfc3339_iff {max : Nat} (hm : max ≤ 9) (s : Str) (t : Int) :
    parseRfc3339 max s = some t ↔ DateText max s t := by
  unfold parseRfc3339
  constructor
  · intro hh
    simp only [Option.bind_eq_bind, Option.bind_eq_some_iff, Prod.exists] at hh
    obtain ⟨y, s1, h1, s2, h2, mo, s3, h3, s4, h4, d, s5, h5, s6, h6, h, s7, h7, s8, h8, mi, s9, h9, s10, h10,
      sec, s11, h11, ns, s12, h12, off, h13, h14⟩ := hh
    obtain ⟨ys, rfl, d1⟩ := (readNum_iff _ _ _).1 h1
    obtain rfl := (readChar_iff _ _ _).1 h2
    obtain ⟨mos, rfl, d2⟩ := (readNum_iff _ _ _).1 h3
    obtain rfl := (readChar_iff _ _ _).1 h4
    obtain ⟨ds, rfl, d3⟩ := (readNum_iff _ _ _).1 h5
    obtain rfl := (readChar_iff _ _ _).1 h6
    obtain ⟨hs, rfl, d4⟩ := (readNum_iff _ _ _).1 h7
    obtain rfl := (readChar_iff _ _ _).1 h8
    obtain ⟨mis, rfl, d5⟩ := (readNum_iff _ _ _).1 h9
    obtain rfl := (readChar_iff _ _ _).1 h10
    obtain ⟨secs, rfl, d6⟩ := (readNum_iff _ _ _).1 h11
    have hz := (readZone_iff _ _).1 h13
    obtain ⟨f, rfl, hf⟩ := (readSubsec_iff hm _ _ _ (zone_head hz)).1 h12
    split at h14
    · rename_i hc
      obtain ⟨c1, c2, c3, c4, c5, c6, c7⟩ := hc
      rw [daysInMonth_eq c1 c2] at c4
      have hv : DateTime.Valid ⟨y, mo, d, h, mi, sec⟩ := ⟨c1, c2, c3, c4, c5, c6, c7⟩
      injection h14 with h14
      refine ⟨⟨y, mo, d, h, mi, sec⟩, ys, mos, ds, hs, mis, secs, f, s12, ns, off, by simp, d1, d2, d3, d4, d5, d6,
        hv, hf, hz, ?_⟩
      rw [← h14, ← unixDate_eq _ hv]
    · cases h14
  · rintro ⟨c, ys, mos, ds, hs, mis, secs, f, z, ns, off, hs0, d1, d2, d3, d4, d5, d6, hv, hf, hz, ht⟩
    have key : ys ++ '-' :: mos ++ '-' :: ds ++ 'T' :: hs ++ ':' :: mis ++ ':' :: secs ++ f ++ z =
        ys ++ ('-' :: (mos ++ ('-' :: (ds ++ ('T' :: (hs ++ (':' :: (mis ++ (':' :: (secs ++ (f ++ z))))))))))) := by
      simp only [List.append_assoc, List.cons_append]
    rw [hs0, key, ht]
    clear hs0 ht key
    simp only [Option.bind_eq_bind, Option.bind_eq_some_iff, Prod.exists]
    refine ⟨_, _, (readNum_iff _ _ _).2 ⟨ys, rfl, d1⟩,
      _, (readChar_iff _ _ _).2 rfl,
      _, _, (readNum_iff _ _ _).2 ⟨mos, rfl, d2⟩, _, (readChar_iff _ _ _).2 rfl,
      _, _, (readNum_iff _ _ _).2 ⟨ds, rfl, d3⟩, _, (readChar_iff _ _ _).2 rfl,
      _, _, (readNum_iff _ _ _).2 ⟨hs, rfl, d4⟩, _, (readChar_iff _ _ _).2 rfl,
      _, _, (readNum_iff _ _ _).2 ⟨mis, rfl, d5⟩, _, (readChar_iff _ _ _).2 rfl,
      _, _, (readNum_iff _ _ _).2 ⟨secs, rfl, d6⟩,
      _, _, (readSubsec_iff hm _ _ _ (zone_head hz)).2 ⟨f, rfl, hf⟩,
      _, (readZone_iff _ _).2 hz, ?_⟩
    obtain ⟨c1, c2, c3, c4, c5, c6, c7⟩ := hv
    rw [if_pos ⟨c1, c2, c3, by rw [daysInMonth_eq c1 c2]; exact c4, c5, c6, c7⟩,
      unixDate_eq _ ⟨c1, c2, c3, c4, c5, c6, c7⟩]

theorem durationUnit_iff (s : Str) (u : Nat) : durationUnit s = some u ↔ unitLength s u := by
  unfold durationUnit unitLength
  constructor
  · intro h
    repeat' (split at h; · (injection h with h; subst h; simp_all))
    cases h
  · rintro (⟨rfl, rfl⟩ | ⟨rfl, rfl⟩ | ⟨rfl, rfl⟩ | ⟨rfl, rfl⟩ | ⟨rfl, rfl⟩ | ⟨rfl, rfl⟩ | ⟨rfl, rfl⟩) <;> rfl

theorem unit_head {s : Str} {u : Nat} (h : unitLength s u) : ∃ c t, s = c :: t ∧ isDecimal c = false ∧ c ≠ '.' ∧
    c ≠ 'e' ∧ c ≠ 'E' := by
  rcases h with ⟨rfl, _⟩ | ⟨rfl, _⟩ | ⟨rfl, _⟩ | ⟨rfl, _⟩ | ⟨rfl, _⟩ | ⟨rfl, _⟩ | ⟨rfl, _⟩ <;>
    exact ⟨_, _, rfl, by decide⟩

/-- Digits followed by something that is not a number are no number. -/
theorem parseFloat_none {ds : Str} {n : Nat} (h : Numeral ds n) {c : Char} {t : Str}
    (h1 : isDecimal c = false) (h2 : c ≠ '.') (h3 : c ≠ 'e') (h4 : c ≠ 'E') : parseFloat (ds ++ c :: t) = none := by
  have ha := numeral_all h
  have hne := numeral_ne h
  obtain ⟨x, ds', rfl⟩ : ∃ x ds', ds = x :: ds' := by
    cases ds with
    | nil => exact absurd rfl hne
    | cons x ds' => exact ⟨x, ds', rfl⟩
  obtain ⟨d, hd, rfl⟩ := ha _ (List.mem_cons_self ..)
  obtain ⟨p1, p2, p3, p4, p5, p6⟩ := digit_plain hd
  unfold parseFloat
  rw [special_none (List.mem_append_left _ (List.mem_cons_self ..)) p1 p6]
  have hs : takeSign (decDigit d :: ds' ++ c :: t) = (false, decDigit d :: ds' ++ c :: t) := by
    rw [List.cons_append]
    unfold takeSign
    split
    · rename_i he; injection he with he _; exact absurd he p4
    · rename_i he; injection he with he _; exact absurd he p5
    · rfl
  have ht := takeWhile_digits ha (c :: t) (by rintro c' t' h; injection h with h _; subst h; exact h1)
  have hf : takeFraction (c :: t) = ([], c :: t) := by
    unfold takeFraction
    split
    · rename_i he; injection he with he _; exact absurd he h2
    · rfl
  have hx : readExponent (c :: t) = none := by
    unfold readExponent
    simp only
    rw [if_neg (by rintro (h | h); exacts [h3 h, h4 h])]
  have : readDecimal (decDigit d :: ds' ++ c :: t) = none := by
    unfold readDecimal
    simp only
    rw [ht.2, hf, hx]
    cases parseDigits _ <;> rfl
  simp only [hs, this]

end LogCache
