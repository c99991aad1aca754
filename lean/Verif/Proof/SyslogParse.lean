import Verif.Model.SyslogParse
import Verif.Spec.SyslogParse
import Verif.Proof.Times

/-! # The syslog parser accepts RFC 5424 -/

namespace LogCache
open Spec

theorem span_split {p : Char → Bool} {f r : Str} (hf : ∀ c ∈ f, p c = true) (hr : ∀ c t, r = c :: t → p c = false) :
    (f ++ r).takeWhile p = f ∧ (f ++ r).dropWhile p = r := by
  induction f with
  | nil =>
    cases r with
    | nil => exact ⟨rfl, rfl⟩
    | cons c t => simp [hr c t rfl]
  | cons c f ih =>
    have h1 := hf c (List.mem_cons_self ..)
    have h2 := ih (fun x hx => hf x (List.mem_cons_of_mem _ hx))
    simp [h1, h2]

theorem takeWhile_all {p : Char → Bool} {s : Str} : ∀ c ∈ s.takeWhile p, p c = true := by
  intro c hc
  induction s with
  | nil => cases hc
  | cons x s ih =>
    rw [List.takeWhile_cons] at hc
    split at hc
    · rcases List.mem_cons.1 hc with rfl | hc
      · assumption
      · exact ih hc
    · cases hc

theorem dropWhile_head {p : Char → Bool} {s : Str} : ∀ c t, s.dropWhile p = c :: t → p c = false := by
  intro c t h
  induction s with
  | nil => cases h
  | cons x s ih =>
    rw [List.dropWhile_cons] at h
    split at h
    · exact ih h
    · rename_i hx
      injection h with h _
      subst h
      simpa using hx

theorem visible_iff (c : Char) : visibleAscii c = true ↔ Visible c := by
  unfold visibleAscii Visible
  rw [Bool.and_eq_true, decide_eq_true_iff, decide_eq_true_iff]
  show 33 ≤ c.toNat ∧ c.toNat ≤ 126 ↔ '!'.val ≤ c.val ∧ c.val ≤ '~'.val
  rw [UInt32.le_iff_toNat_le, UInt32.le_iff_toNat_le]
  rfl

theorem sdNameChar_iff (c : Char) : sdNameChar c = true ↔ Visible c ∧ c ≠ '=' ∧ c ≠ ']' ∧ c ≠ '"' := by
  unfold sdNameChar
  simp only [Bool.and_eq_true, bne_iff_ne, visible_iff]
  constructor
  · rintro ⟨⟨⟨a, b⟩, c⟩, d⟩; exact ⟨a, b, c, d⟩
  · rintro ⟨a, b, c, d⟩; exact ⟨⟨⟨a, b⟩, c⟩, d⟩

/-- Numerals without leading zeros are the usual notation. -/
theorem numeral_canon {ds : Str} {n : Nat} (h : Numeral ds n) (hz : ds.length = 1 ∨ ds.head? ≠ some '0') :
    ds = dec n := by
  induction h with
  | one h => rw [dec, if_pos h]
  | @snoc s n d hs h ih =>
    have hne := numeral_ne hs
    have hl : ¬ (s ++ [decDigit d]).length = 1 := by
      cases s with
      | nil => exact absurd rfl hne
      | cons a b => simp
    have hh : s.head? ≠ some '0' := by
      rcases hz with hz | hz
      · exact absurd hz hl
      · cases s with
        | nil => exact absurd rfl hne
        | cons a b => simpa using hz
    have e := ih (.inr hh)
    have hn : n ≠ 0 := by
      rintro rfl
      rw [e] at hh
      exact hh (by rw [dec]; rfl)
    conv => rhs; rw [dec]
    rw [if_neg (by omega), show (10 * n + d) / 10 = n by omega, show (10 * n + d) % 10 = d by omega, ← e]

theorem dec_canon (n : Nat) : (dec n).length = 1 ∨ (dec n).head? ≠ some '0' := by
  induction n using Nat.strongRecOn with
  | _ n ih =>
    rw [dec]
    split
    · exact .inl rfl
    · rename_i hn
      right
      have hd : ∀ d : Fin 10, d.val ≠ 0 → decDigit d.val ≠ '0' := by decide
      have hne := numeral_ne (numeral_dec (n / 10))
      rcases ih (n / 10) (by omega) with h | h
      · have h10 : n / 10 < 10 := by
          rw [dec] at h
          split at h
          · assumption
          · have := List.length_pos_iff.2 (numeral_ne (numeral_dec (n / 10 / 10)))
            rw [List.length_append, List.length_singleton] at h
            omega
        rw [dec, if_pos h10]
        simpa using hd ⟨n / 10, h10⟩ (by simp only; omega)
      · cases hx : dec (n / 10) with
        | nil => exact absurd hx hne
        | cons a b => rw [hx] at h; simpa using h

theorem plainNum_iff (lo hi : Nat) (s : Str) (n : Nat) (r : Str) (hr : ∀ c t, r = c :: t → isDecimal c = false) :
    readPlainNum lo hi s = some (n, r) ↔ s = dec n ++ r ∧ lo ≤ n ∧ n ≤ hi := by
  unfold readPlainNum
  simp only
  constructor
  · intro h
    cases hp : parseDigits (s.takeWhile isDecimal) with
    | none => rw [hp] at h; cases h
    | some m =>
      rw [hp] at h
      simp only at h
      split at h
      · rename_i hc
        simp only [Option.some.injEq, Prod.mk.injEq] at h
        obtain ⟨rfl, rfl⟩ := h
        refine ⟨?_, hc.2⟩
        rw [← numeral_canon ((parseDigits_iff _ _).1 hp) hc.1, List.takeWhile_append_dropWhile]
      · cases h
  · rintro ⟨rfl, h1, h2⟩
    have ht := takeWhile_digits (numeral_all (numeral_dec n)) r hr
    rw [ht.1, ht.2, (parseDigits_iff _ _).2 (numeral_dec n)]
    simp only
    rw [if_pos ⟨dec_canon n, h1, h2⟩]

theorem field_iff (max : Nat) (s : Str) (v : Option Str) (r : Str) :
    readField max s = some (v, r) ↔ ∃ f, s = f ++ ' ' :: r ∧ HeaderField max f v := by
  unfold readField
  simp only
  constructor
  · intro h
    split at h
    · cases h
    · rename_i hc
      rw [Option.map_eq_some_iff] at h
      obtain ⟨r', hr', h⟩ := h
      simp only [Prod.mk.injEq] at h
      obtain ⟨hv, rfl⟩ := h
      have hr' := (readChar_iff _ _ _).1 hr'
      refine ⟨s.takeWhile visibleAscii, ?_, fun h => hc (.inl h), ?_, ?_, ?_⟩
      · rw [← hr', List.takeWhile_append_dropWhile]
      · exact Nat.le_of_not_lt fun h => hc (.inr h)
      · intro c hc
        exact (visible_iff c).1 (takeWhile_all c hc)
      · by_cases hd : s.takeWhile visibleAscii = ['-']
        · rw [if_pos hd] at hv
          exact .inl ⟨hd, hv.symm⟩
        · rw [if_neg hd] at hv
          exact .inr ⟨hd, hv.symm⟩
  · rintro ⟨f, rfl, h1, h2, h3, h4⟩
    have ht := span_split (p := visibleAscii) (f := f) (r := ' ' :: r) (fun c hc => (visible_iff c).2 (h3 c hc))
      (by intro c t h; injection h with h _; subst h; decide)
    rw [ht.1, ht.2, if_neg (by rintro (h | h); exacts [h1 h, by omega]), (readChar_iff _ _ _).2 rfl]
    rw [Option.map_some]
    rcases h4 with ⟨rfl, rfl⟩ | ⟨h4, rfl⟩
    · rfl
    · rw [if_neg (show ¬ f = ['-'] from h4)]

theorem digit_visible {d : Nat} (h : d < 10) : Visible (decDigit d) := by
  have : ∀ d : Fin 10, visibleAscii (decDigit d.val) = true := by decide
  exact (visible_iff _).1 (this ⟨d, h⟩)

theorem digits_visible {k : Nat} {s : Str} {n : Nat} (h : Digits k s n) : ∀ c ∈ s, Visible c := by
  intro c hc
  obtain ⟨d, hd, rfl⟩ := numeral_all h.1 c hc
  exact digit_visible hd

theorem date_visible {max : Nat} {s : Str} {t : Int} (h : DateText max s t) :
    (∀ c ∈ s, Visible c) ∧ s ≠ [] ∧ s ≠ "-".toList := by
  obtain ⟨c, y, mo, d, h, mi, sec, f, z, ns, off, rfl, d1, d2, d3, d4, d5, d6, hv, hf, hz, ht⟩ := h
  have v1 : Visible '-' := (visible_iff _).1 (by decide)
  have v2 : Visible ':' := (visible_iff _).1 (by decide)
  have v3 : Visible 'T' := (visible_iff _).1 (by decide)
  have v4 : Visible '.' := (visible_iff _).1 (by decide)
  have v5 : Visible 'Z' := (visible_iff _).1 (by decide)
  have v6 : Visible '+' := (visible_iff _).1 (by decide)
  have hfv : ∀ c ∈ f, Visible c := by
    rcases hf with ⟨rfl, _⟩ | ⟨ds, n, rfl, hn, _⟩
    · intro c hc; cases hc
    · intro c hc
      rcases List.mem_cons.1 hc with rfl | hc
      · exact v4
      · exact digits_visible ⟨hn, rfl⟩ c hc
  have hzv : ∀ c ∈ z, Visible c := by
    rcases hz with ⟨rfl, _⟩ | ⟨x, a, b, hv, mv, rfl, e1, e2, _, _, hx⟩
    · intro c hc
      rw [List.mem_singleton] at hc
      subst hc; exact v5
    · intro c hc
      rcases List.mem_cons.1 hc with rfl | hc
      · rcases hx with ⟨rfl, _⟩ | ⟨rfl, _⟩
        · exact v6
        · exact v1
      · rcases List.mem_append.1 hc with hc | hc
        · exact digits_visible e1 c hc
        · rcases List.mem_cons.1 hc with rfl | hc
          · exact v2
          · exact digits_visible e2 c hc
  refine ⟨?_, ?_, ?_⟩
  · intro x hx
    simp only [List.mem_append, List.mem_cons, or_assoc] at hx
    rcases hx with hx | rfl | hx | rfl | hx | rfl | hx | rfl | hx | rfl | hx | hx | hx
    · exact digits_visible d1 x hx
    · exact v1
    · exact digits_visible d2 x hx
    · exact v1
    · exact digits_visible d3 x hx
    · exact v3
    · exact digits_visible d4 x hx
    · exact v2
    · exact digits_visible d5 x hx
    · exact v2
    · exact digits_visible d6 x hx
    · exact hfv x hx
    · exact hzv x hx
  · intro h
    have := congrArg List.length h
    simp [d1.2] at this
  · intro h
    have := congrArg List.length h
    simp [d1.2] at this
    omega

theorem timestamp_iff (s : Str) (v : Option Int) (r : Str) :
    readTimestamp s = some (v, r) ↔ ∃ f, s = f ++ ' ' :: r ∧ TimeField f v := by
  unfold readTimestamp
  constructor
  · intro h
    cases hf : readField s.length s with
    | none => rw [hf] at h; cases h
    | some x =>
      obtain ⟨w, r'⟩ := x
      obtain ⟨f, hs, h1, h2, h3, h4⟩ := (field_iff _ _ _ _).1 hf
      rw [hf] at h
      rcases h4 with ⟨hd, rfl⟩ | ⟨hd, rfl⟩
      · simp only [Option.some.injEq, Prod.mk.injEq] at h
        obtain ⟨rfl, rfl⟩ := h
        exact ⟨f, hs, .inl ⟨hd, rfl⟩⟩
      · simp only at h
        rw [Option.map_eq_some_iff] at h
        obtain ⟨t, ht, h⟩ := h
        simp only [Prod.mk.injEq] at h
        obtain ⟨rfl, rfl⟩ := h
        exact ⟨f, hs, .inr ⟨t, (rfc3339_iff (by omega) _ _).1 ht, rfl⟩⟩
  · rintro ⟨f, rfl, ⟨rfl, rfl⟩ | ⟨t, ht, rfl⟩⟩
    · have : readField ("-".toList ++ ' ' :: r).length ("-".toList ++ ' ' :: r) = some (none, r) :=
        (field_iff _ _ _ _).2 ⟨"-".toList, rfl, by decide, by simp, by
          intro c hc
          have : c = '-' := by simpa using hc
          subst this
          exact (visible_iff _).1 (by decide), .inl ⟨rfl, rfl⟩⟩
      rw [this]
    · obtain ⟨h1, h2, h3⟩ := date_visible ht
      have : readField (f ++ ' ' :: r).length (f ++ ' ' :: r) = some (some f, r) :=
        (field_iff _ _ _ _).2 ⟨f, rfl, h2, by simp, h1, .inr ⟨h3, rfl⟩⟩
      rw [this]
      simp only
      rw [(rfc3339_iff (by omega) _ _).2 ht]
      rfl

theorem sdName_iff (s f r : Str) :
    readSdName s = some (f, r) ↔ s = f ++ r ∧ SdName f ∧ ∀ c t, r = c :: t → sdNameChar c = false := by
  unfold readSdName
  simp only
  constructor
  · intro h
    split at h
    · cases h
    · rename_i hc
      simp only [Option.some.injEq, Prod.mk.injEq] at h
      obtain ⟨rfl, rfl⟩ := h
      refine ⟨List.takeWhile_append_dropWhile.symm, ⟨fun h => hc (.inl h), ?_, ?_⟩, dropWhile_head⟩
      · exact Nat.le_of_not_lt fun h => hc (.inr h)
      · intro c hc
        exact (sdNameChar_iff c).1 (takeWhile_all c hc)
  · rintro ⟨rfl, ⟨h1, h2, h3⟩, hr⟩
    have ht := span_split (p := sdNameChar) (fun c hc => (sdNameChar_iff c).2 (h3 c hc)) hr
    rw [ht.1, ht.2, if_neg (by rintro (h | h); exacts [h1 h, by omega])]

theorem sdEscape_cons (c : Char) (v : Str) :
    sdEscape (c :: v) = (if c = '"' ∨ c = '\\' ∨ c = ']' then ['\\', c] else [c]) ++ sdEscape v := rfl

theorem sdValue_iff (s v r : Str) : readSdValue s = some (v, r) ↔ s = sdEscape v ++ '"' :: r := by
  constructor
  · intro h
    fun_induction readSdValue s generalizing v with
    | case1 => cases h
    | case2 r' =>
      simp only [Option.some.injEq, Prod.mk.injEq] at h
      obtain ⟨rfl, rfl⟩ := h
      rfl
    | case3 => cases h
    | case4 => cases h
    | case5 c r' hc ih =>
      rw [Option.map_eq_some_iff] at h
      obtain ⟨⟨v', r''⟩, h1, h2⟩ := h
      simp only [Prod.mk.injEq] at h2
      obtain ⟨rfl, rfl⟩ := h2
      rw [sdEscape_cons, if_pos hc, ih _ h1]
      rfl
    | case6 => cases h
    | case7 c r' h1 h2 h3 h4 ih =>
      rw [Option.map_eq_some_iff] at h
      obtain ⟨⟨v', r''⟩, e1, e2⟩ := h
      simp only [Prod.mk.injEq] at e2
      obtain ⟨rfl, rfl⟩ := e2
      have hc : ¬ (c = '"' ∨ c = '\\' ∨ c = ']') := by
        rintro (rfl | rfl | rfl)
        · exact h1 rfl
        · cases r' with
          | nil => exact h3 rfl rfl
          | cons a b => exact h4 a b rfl rfl
        · exact h2 rfl
      rw [sdEscape_cons, if_neg hc, ih _ e1]
      rfl
  · rintro rfl
    induction v with
    | nil => rfl
    | cons c v ih =>
      rw [sdEscape_cons]
      by_cases hc : c = '"' ∨ c = '\\' ∨ c = ']'
      · rw [if_pos hc]
        show readSdValue ('\\' :: c :: (sdEscape v ++ '"' :: r)) = _
        rw [readSdValue.eq_def]
        simp only
        rw [if_pos hc, ih]
        rfl
      · rw [if_neg hc]
        show readSdValue (c :: (sdEscape v ++ '"' :: r)) = _
        rw [readSdValue.eq_def]
        split
        · rename_i h; cases h
        · rename_i h; injection h with h _; exact absurd (.inl h) hc
        · rename_i h; injection h with h _; exact absurd (.inr (.inr h)) hc
        · rename_i h; injection h with h _; exact absurd (.inr (.inl h)) hc
        · rename_i h; injection h with h _; exact absurd (.inr (.inl h)) hc
        · rename_i h
          injection h with h1 h2
          subst h1 h2
          rw [ih]
          rfl

theorem sdParam_iff (s k v r : Str) :
    readSdParam s = some ((k, v), r) ↔ ' ' :: s = sdParamText (k, v) ++ r ∧ SdName k := by
  unfold readSdParam sdParamText
  simp only [Option.bind_eq_bind, Option.bind_eq_some_iff, Prod.exists, Option.some.injEq, Prod.mk.injEq]
  constructor
  · rintro ⟨k', s1, h1, s2, h2, s3, h3, v', s4, h4, ⟨rfl, rfl⟩, rfl⟩
    obtain ⟨rfl, hn, _⟩ := (sdName_iff _ _ _).1 h1
    obtain rfl := (readChar_iff _ _ _).1 h2
    obtain rfl := (readChar_iff _ _ _).1 h3
    rw [(sdValue_iff _ _ _).1 h4]
    exact ⟨by simp, hn⟩
  · rintro ⟨h, hn⟩
    have hs : s = k ++ ('=' :: ('"' :: (sdEscape v ++ '"' :: r))) := by
      have := List.tail_eq_of_cons_eq h
      rw [this]
      simp
    subst hs
    refine ⟨k, _, (sdName_iff _ _ _).2 ⟨rfl, hn, ?_⟩, _, (readChar_iff _ _ _).2 rfl, _, (readChar_iff _ _ _).2 rfl, v, r,
      (sdValue_iff _ _ _).2 rfl, ⟨rfl, rfl⟩, rfl⟩
    intro c t h
    injection h with h _
    subst h
    decide

theorem setParam_fold (acc qs : List (Str × Str)) :
    qs.foldl setParam acc = acc.filter (fun x => decide (x.1 ∉ qs.map (·.1))) ++ lastValues qs := by
  induction qs generalizing acc with
  | nil => simp [lastValues]
  | cons p qs ih =>
    rw [List.foldl_cons, ih]
    unfold setParam
    rw [List.filter_append, List.filter_filter]
    have e1 : acc.filter (fun x => decide (x.1 ∉ qs.map (·.1)) && decide (x.1 ≠ p.1)) =
        acc.filter (fun x => decide (x.1 ∉ (p :: qs).map (·.1))) := by
      congr 1
      funext x
      rw [List.map_cons, ← Bool.decide_and]
      congr 1
      simp only [List.mem_cons, not_or, eq_iff_iff]
      exact and_comm
    rw [e1, List.append_assoc]
    congr 1
    rw [lastValues]
    by_cases hp : p.1 ∈ qs.map (·.1)
    · simp [List.filter_cons, hp]
    · simp [List.filter_cons, hp]

theorem lastValues_fold (qs : List (Str × Str)) : qs.foldl setParam [] = lastValues qs := by
  rw [setParam_fold]; rfl

theorem sdParams_sound (fuel : Nat) (acc : List (Str × Str)) (s : Str) (ps : List (Str × Str)) (r : Str)
    (h : readSdParams fuel acc s = some (ps, r)) :
    ∃ qs : List (Str × Str), s = qs.flatMap sdParamText ++ ']' :: r ∧ (∀ p ∈ qs, SdName p.1) ∧ ps = qs.foldl setParam acc := by
  fun_induction readSdParams fuel acc s with
  | case1 _ acc s =>
    simp only [Option.some.injEq, Prod.mk.injEq] at h
    obtain ⟨rfl, rfl⟩ := h
    exact ⟨[], rfl, by simp, rfl⟩
  | case2 => cases h
  | case3 fuel acc s p s' hp ih =>
    obtain ⟨k, v⟩ := p
    obtain ⟨he, hk⟩ := (sdParam_iff _ _ _ _).1 hp
    obtain ⟨qs, rfl, hn, rfl⟩ := ih h
    refine ⟨(k, v) :: qs, ?_, ?_, rfl⟩
    · rw [he, List.flatMap_cons, List.append_assoc]
    · intro p hp
      rcases List.mem_cons.1 hp with rfl | hp
      · exact hk
      · exact hn p hp
  | case4 => cases h

theorem sdParams_complete (fuel : Nat) (acc qs : List (Str × Str)) (r : Str) (hn : ∀ p ∈ qs, SdName p.1)
    (hf : qs.length ≤ fuel) :
    readSdParams fuel acc (qs.flatMap sdParamText ++ ']' :: r) = some (qs.foldl setParam acc, r) := by
  induction qs generalizing fuel acc with
  | nil => cases fuel <;> rfl
  | cons p qs ih =>
    obtain ⟨k, v⟩ := p
    cases fuel with
    | zero => simp at hf
    | succ fuel =>
      obtain ⟨s, hs⟩ : ∃ s, ((k, v) :: qs).flatMap sdParamText ++ ']' :: r = ' ' :: s := by
        rw [List.flatMap_cons]
        unfold sdParamText
        exact ⟨_, rfl⟩
      have hp : readSdParam s = some ((k, v), qs.flatMap sdParamText ++ ']' :: r) := by
        refine (sdParam_iff _ _ _ _).2 ⟨?_, hn _ (List.mem_cons_self ..)⟩
        rw [← hs, List.flatMap_cons, List.append_assoc]
      rw [hs, readSdParams.eq_def]
      simp only
      rw [hp]
      simp only
      rw [ih _ _ (fun p hp => hn p (List.mem_cons_of_mem _ hp)) (by simpa using hf)]
      rfl

theorem params_length (qs : List (Str × Str)) : qs.length ≤ (qs.flatMap sdParamText).length := by
  induction qs with
  | nil => simp
  | cons p qs ih =>
    rw [List.flatMap_cons, List.length_append, List.length_cons]
    have : 1 ≤ (sdParamText p).length := by unfold sdParamText; simp
    omega

theorem sdElement_iff (s : Str) (e : Str × List (Str × Str)) (r : Str) :
    readSdElement s = some (e, r) ↔ ∃ qs : List (Str × Str), s = sdElementText (e.1, qs) ++ r ∧ SdName e.1 ∧
      (∀ p ∈ qs, SdName p.1) ∧ e.2 = lastValues qs := by
  obtain ⟨id, ps⟩ := e
  unfold readSdElement sdElementText
  simp only [Option.bind_eq_bind, Option.bind_eq_some_iff, Prod.exists, Option.some.injEq, Prod.mk.injEq]
  constructor
  · rintro ⟨s1, h1, id', s2, h2, ps', s3, h3, ⟨rfl, rfl⟩, rfl⟩
    obtain rfl := (readChar_iff _ _ _).1 h1
    obtain ⟨rfl, hn, _⟩ := (sdName_iff _ _ _).1 h2
    obtain ⟨qs, rfl, hq, rfl⟩ := sdParams_sound _ _ _ _ _ h3
    exact ⟨qs, by simp, hn, hq, lastValues_fold qs⟩
  · rintro ⟨qs, rfl, hn, hq, rfl⟩
    refine ⟨id ++ (qs.flatMap sdParamText ++ ']' :: r), (readChar_iff _ _ _).2 (by simp), id, _,
      (sdName_iff _ _ _).2 ⟨rfl, hn, ?_⟩, _, r, sdParams_complete _ _ _ _ hq ?_, ⟨rfl, lastValues_fold qs⟩, rfl⟩
    · intro c t h
      cases qs with
      | nil => injection h with h _; subst h; decide
      | cons q qs =>
        rw [List.flatMap_cons] at h
        unfold sdParamText at h
        injection h with h _
        subst h; decide
    · rw [List.length_append]
      have := params_length qs
      omega

theorem element_head (e : Str × List (Str × Str)) : ∃ t, sdElementText e = '[' :: t := by
  unfold sdElementText; exact ⟨_, rfl⟩

/-- What an element means. -/
def sdMeaning (e : Str × List (Str × Str)) : Str × List (Str × Str) := (e.1, lastValues e.2)

theorem sdElements_sound (fuel : Nat) (acc : List (Str × List (Str × Str))) (s : Str)
    (es : List (Str × List (Str × Str))) (r : Str) (ha : (acc.map (·.1)).Nodup)
    (h : readSdElements fuel acc s = some (es, r)) :
    ∃ qs : List (Str × List (Str × Str)), qs ≠ [] ∧ s = qs.flatMap sdElementText ++ r ∧
      (∀ e ∈ qs, SdName e.1 ∧ ∀ p ∈ e.2, SdName p.1) ∧ es = acc ++ qs.map sdMeaning ∧ (es.map (·.1)).Nodup ∧
      r.head? ≠ some '[' := by
  induction fuel generalizing acc s with
  | zero => cases h
  | succ fuel ih =>
    rw [readSdElements] at h
    cases he : readSdElement s with
    | none => rw [he] at h; cases h
    | some x =>
      obtain ⟨e, s'⟩ := x
      obtain ⟨qs, rfl, h1, h2, h3⟩ := (sdElement_iff _ _ _).1 he
      rw [he] at h
      simp only at h
      split at h
      · cases h
      · rename_i hd
        have hnd : ((acc ++ [e]).map (·.1)).Nodup := by
          rw [List.map_append, List.nodup_append]
          refine ⟨ha, by simp, ?_⟩
          intro a ha b hb
          simp only [List.map_cons, List.map_nil, List.mem_singleton] at hb
          subst hb
          rintro rfl
          exact hd ha
        have hm : e = sdMeaning (e.1, qs) := by
          unfold sdMeaning
          rw [← h3]
        split at h
        · obtain ⟨ws, hw1, rfl, hw3, rfl, hw5, hw6⟩ := ih _ _ hnd h
          refine ⟨(e.1, qs) :: ws, by simp, ?_, ?_, ?_, hw5, hw6⟩
          · rw [List.flatMap_cons, List.append_assoc]
          · intro x hx
            rcases List.mem_cons.1 hx with rfl | hx
            · exact ⟨h1, h2⟩
            · exact hw3 x hx
          · rw [List.map_cons, ← hm]
            simp
        · rename_i hh
          simp only [Option.some.injEq, Prod.mk.injEq] at h
          obtain ⟨rfl, rfl⟩ := h
          refine ⟨[(e.1, qs)], by simp, by simp, ?_, ?_, hnd, hh⟩
          · intro x hx
            rw [List.mem_singleton] at hx
            subst hx
            exact ⟨h1, h2⟩
          · rw [List.map_cons, ← hm]
            rfl

theorem sdElements_complete (fuel : Nat) (acc qs : List (Str × List (Str × Str))) (r : Str) (hne : qs ≠ [])
    (hn : ∀ e ∈ qs, SdName e.1 ∧ ∀ p ∈ e.2, SdName p.1) (hd : ((acc ++ qs).map (·.1)).Nodup)
    (hr : r.head? ≠ some '[') (hf : qs.length ≤ fuel) :
    readSdElements fuel acc (qs.flatMap sdElementText ++ r) = some (acc ++ qs.map sdMeaning, r) := by
  induction qs generalizing fuel acc with
  | nil => exact absurd rfl hne
  | cons e qs ih =>
    cases fuel with
    | zero => simp at hf
    | succ fuel =>
      have he : readSdElement ((e :: qs).flatMap sdElementText ++ r) =
          some (sdMeaning e, qs.flatMap sdElementText ++ r) := by
        refine (sdElement_iff _ _ _).2 ⟨e.2, ?_, (hn e (List.mem_cons_self ..)).1, (hn e (List.mem_cons_self ..)).2, rfl⟩
        rw [List.flatMap_cons, List.append_assoc]
        rfl
      rw [readSdElements, he]
      simp only
      have hnot : (sdMeaning e).1 ∉ acc.map (·.1) := by
        rw [List.map_append, List.nodup_append] at hd
        intro hx
        exact hd.2.2 _ hx _ (List.mem_cons_self ..) rfl
      rw [if_neg hnot]
      cases hq : qs with
      | nil =>
        rw [List.flatMap_nil, List.nil_append, if_neg hr]
        rfl
      | cons a b =>
        rw [← hq, if_pos]
        · rw [ih _ (acc ++ [sdMeaning e]) (by rw [hq]; simp) (fun x hx => hn x (List.mem_cons_of_mem _ hx)) _ (by simpa using hf)]
          · simp
          · rw [List.append_assoc, List.map_append] at *
            exact hd
        · obtain ⟨t, ht⟩ := element_head a
          rw [hq, List.flatMap_cons, ht]
          rfl

theorem sd_iff (s : Str) (v : Option (List (Str × List (Str × Str)))) (r : Str) (hr : r.head? ≠ some '[') :
    readSd s = some (v, r) ↔ ∃ f, s = f ++ r ∧ SdField f v := by
  constructor
  · intro h
    unfold readSd at h
    split at h
    · simp only [Option.some.injEq, Prod.mk.injEq] at h
      obtain ⟨rfl, rfl⟩ := h
      exact ⟨['-'], rfl, .inl ⟨rfl, rfl⟩⟩
    · rw [Option.map_eq_some_iff] at h
      obtain ⟨⟨es, r'⟩, h, h2⟩ := h
      simp only [Prod.mk.injEq] at h2
      obtain ⟨rfl, rfl⟩ := h2
      obtain ⟨qs, h1, rfl, h3, rfl, h5, _⟩ := sdElements_sound _ _ _ _ _ (by simp) h
      refine ⟨_, rfl, .inr ⟨qs, h1, rfl, h3, ?_, ?_⟩⟩
      · rw [List.nil_append, List.map_map] at h5
        exact h5
      · rw [List.nil_append]; rfl
  · rintro ⟨f, rfl, ⟨rfl, rfl⟩ | ⟨qs, h1, rfl, h3, h4, rfl⟩⟩
    · rfl
    · have key := sdElements_complete (qs.flatMap sdElementText ++ r).length [] qs r h1 h3 (by simpa using h4) hr (by
        have : ∀ qs : List (Str × List (Str × Str)), qs.length ≤ (qs.flatMap sdElementText).length := by
          intro qs
          induction qs with
          | nil => simp
          | cons p qs ih =>
            rw [List.flatMap_cons, List.length_append, List.length_cons]
            have : 1 ≤ (sdElementText p).length := by unfold sdElementText; simp
            omega
        have := this qs
        rw [List.length_append]
        omega)
      unfold readSd
      split
      · rename_i x y he
        cases qs with
        | nil => exact absurd rfl h1
        | cons a b =>
          obtain ⟨t, ht⟩ := element_head a
          rw [List.flatMap_cons, ht] at he
          injection he with he _
          exact absurd he (by decide)
      · rw [key]
        rfl

theorem textField_iff (s : Str) (v : Option Str) : readText s = some v ↔ TextField s v := by
  unfold readText TextField
  constructor
  · intro h
    split at h
    · injection h with h
      exact .inl ⟨.inl rfl, h.symm⟩
    · injection h with h
      split at h
      · rename_i r hr
        subst hr
        exact .inl ⟨.inr rfl, h.symm⟩
      · rename_i r hr
        exact .inr ⟨r, hr, rfl, h.symm⟩
    · cases h
  · rintro (⟨rfl | rfl, rfl⟩ | ⟨t, ht, rfl, rfl⟩)
    · rfl
    · rfl
    · simp [ht]

theorem textField_head {s : Str} {v : Option Str} (h : TextField s v) : s.head? ≠ some '[' := by
  rcases h with ⟨rfl | rfl, _⟩ | ⟨t, _, rfl, _⟩ <;> simp

theorem rfc5424_iff (s : Str) (m : SyslogMsg) : parseRfc5424 s = some m ↔ Rfc5424 s m := by
  have nd : ∀ (x : Char) (r : Str), isDecimal x = false → ∀ c t, x :: r = c :: t → isDecimal c = false := by
    intro x r hx c t h
    injection h with h _
    subst h; exact hx
  unfold parseRfc5424 Rfc5424
  simp only [Option.bind_eq_bind, Option.bind_eq_some_iff, Prod.exists]
  constructor
  · rintro ⟨s1, h1, pri, s2, h2, s3, h3, ver, s4, h4, s5, h5, ts, s6, h6, hv, s7, h7, app, s8, h8, pid, s9, h9, iv, s10, h10,
      sd, s11, h11, text, h12, h13⟩
    injection h13 with h13
    subst h13
    obtain rfl := (readChar_iff _ _ _).1 h1
    obtain rfl := (readChar_iff _ _ _).1 h3
    obtain rfl := (readChar_iff _ _ _).1 h5
    obtain ⟨rfl, _, p2⟩ := (plainNum_iff _ _ _ _ _ (nd _ _ (by decide))).1 h2
    obtain ⟨rfl, v1, v2⟩ := (plainNum_iff _ _ _ _ _ (nd _ _ (by decide))).1 h4
    obtain ⟨f1, rfl, e1⟩ := (timestamp_iff _ _ _).1 h6
    obtain ⟨f2, rfl, e2⟩ := (field_iff _ _ _ _).1 h7
    obtain ⟨f3, rfl, e3⟩ := (field_iff _ _ _ _).1 h8
    obtain ⟨f4, rfl, e4⟩ := (field_iff _ _ _ _).1 h9
    obtain ⟨f5, rfl, e5⟩ := (field_iff _ _ _ _).1 h10
    have e7 := (textField_iff _ _).1 h12
    obtain ⟨f6, rfl, e6⟩ := (sd_iff _ _ _ (textField_head e7)).1 h11
    exact ⟨pri, ver, f1, f2, f3, f4, f5, f6, s11, hv, iv, by simp, p2, v1, v2, e1, e2, e3, e4, e5, e6, e7, rfl⟩
  · rintro ⟨pri, ver, f1, f2, f3, f4, f5, f6, s11, hv, iv, hs, p2, v1, v2, e1, e2, e3, e4, e5, e6, e7, e8⟩
    have hs' : s = '<' :: (dec pri ++ ('>' :: (dec ver ++ (' ' :: (f1 ++ (' ' :: (f2 ++ (' ' :: (f3 ++ (' ' ::
        (f4 ++ (' ' :: (f5 ++ (' ' :: (f6 ++ s11))))))))))))))) := by
      rw [hs]; simp only [List.append_assoc, List.cons_append]
    subst hs'
    clear hs
    refine ⟨_, (readChar_iff _ _ _).2 rfl, _, _, (plainNum_iff _ _ _ _ _ (nd _ _ (by decide))).2 ⟨rfl, Nat.zero_le _, p2⟩,
      _, (readChar_iff _ _ _).2 rfl, _, _, (plainNum_iff _ _ _ _ _ (nd _ _ (by decide))).2 ⟨rfl, v1, v2⟩,
      _, (readChar_iff _ _ _).2 rfl, _, _, (timestamp_iff _ _ _).2 ⟨f1, rfl, e1⟩,
      _, _, (field_iff _ _ _ _).2 ⟨f2, rfl, e2⟩, _, _, (field_iff _ _ _ _).2 ⟨f3, rfl, e3⟩,
      _, _, (field_iff _ _ _ _).2 ⟨f4, rfl, e4⟩, _, _, (field_iff _ _ _ _).2 ⟨f5, rfl, e5⟩,
      _, _, (sd_iff _ _ _ (textField_head e7)).2 ⟨f6, rfl, e6⟩, _, (textField_iff _ _).2 e7, ?_⟩
    rw [← e8]

end LogCache
