import Verif.Model.SyslogStream
import Verif.Spec.SyslogStream
import Verif.Proof.SyslogParse

/-! # Frames in a stream of octets -/

namespace LogCache
open Spec

theorem digit_octet {d : Nat} (h : d < 10) :
    ∃ b : UInt8, String.utf8EncodeChar (decDigit d) = [b] ∧ octetChar b = decDigit d ∧ digitOctet b = true ∧
      (b = 48 → d = 0) := by
  have : ∀ d : Fin 10, ∃ b : UInt8, String.utf8EncodeChar (decDigit d.val) = [b] ∧ octetChar b = decDigit d.val ∧
      digitOctet b = true ∧ (b = 48 → d.val = 0) := by
    intro d
    refine ⟨UInt8.ofNat (48 + d.val), ?_⟩
    revert d
    decide
  exact this ⟨d, h⟩

theorem octet_digit {b : UInt8} (h : digitOctet b = true) : [b] = String.utf8EncodeChar (octetChar b) := by
  have : ∀ n : Fin 256, digitOctet (UInt8.ofNat n.val) = true →
      [UInt8.ofNat n.val] = String.utf8EncodeChar (octetChar (UInt8.ofNat n.val)) := by decide +kernel
  have hb : UInt8.ofNat b.toNat = b := UInt8.ofNat_toNat
  have := this ⟨b.toNat, b.toNat_lt⟩
  simp only [hb] at this
  exact this h

theorem octet_zero (b : UInt8) : octetChar b = '0' ↔ b = 48 := by
  have : ∀ n : Fin 256, octetChar (UInt8.ofNat n.val) = '0' ↔ UInt8.ofNat n.val = 48 := by decide +kernel
  have hb : UInt8.ofNat b.toNat = b := UInt8.ofNat_toNat
  have := this ⟨b.toNat, b.toNat_lt⟩
  simpa only [hb] using this

theorem octets_append (a b : Str) : octets (a ++ b) = octets a ++ octets b := by
  unfold octets; rw [List.flatMap_append]

theorem octets_cons (c : Char) (s : Str) : octets (c :: s) = String.utf8EncodeChar c ++ octets s := rfl

theorem octets_digits {s : Str} (h : AllDigits s) :
    (octets s).map octetChar = s ∧ ∀ b ∈ octets s, digitOctet b = true := by
  induction s with
  | nil => exact ⟨rfl, by simp [octets]⟩
  | cons c s ih =>
    obtain ⟨d, hd, rfl⟩ := h c (List.mem_cons_self ..)
    obtain ⟨b, e1, e2, e3, _⟩ := digit_octet hd
    obtain ⟨i1, i2⟩ := ih (fun x hx => h x (List.mem_cons_of_mem _ hx))
    rw [octets_cons, e1]
    refine ⟨by simp [e2, i1], ?_⟩
    intro x hx
    rcases List.mem_append.1 hx with hx | hx
    · rw [List.mem_singleton] at hx
      rw [hx]; exact e3
    · exact i2 x hx

theorem digits_octets {bs : List UInt8} (h : ∀ b ∈ bs, digitOctet b = true) : octets (bs.map octetChar) = bs := by
  induction bs with
  | nil => rfl
  | cons b bs ih =>
    rw [List.map_cons, octets_cons, ← octet_digit (h b (List.mem_cons_self ..)),
      ih (fun x hx => h x (List.mem_cons_of_mem _ hx))]
    rfl

theorem octet_span {p : UInt8 → Bool} {f r : List UInt8} (hf : ∀ c ∈ f, p c = true) (hr : ∀ c t, r = c :: t → p c = false) :
    (f ++ r).takeWhile p = f ∧ (f ++ r).dropWhile p = r := by
  induction f with
  | nil =>
    cases r with
    | nil => exact ⟨rfl, rfl⟩
    | cons c t => simp [hr c t rfl]
  | cons c f ih =>
    have h1 := hf c (List.mem_cons_self ..)
    have h2 := ih (fun x hx => hf x (List.mem_cons_of_mem _ hx))
    simp [h1, h2]

theorem octet_takeWhile {p : UInt8 → Bool} {s : List UInt8} : ∀ c ∈ s.takeWhile p, p c = true := by
  intro c hc
  induction s with
  | nil => cases hc
  | cons x s ih =>
    rw [List.takeWhile_cons] at hc
    split at hc
    · rcases List.mem_cons.1 hc with rfl | hc
      · assumption
      · exact ih hc
    · cases hc

theorem octet_dropWhile {p : UInt8 → Bool} {s : List UInt8} : ∀ c t, s.dropWhile p = c :: t → p c = false := by
  intro c t h
  induction s with
  | nil => cases h
  | cons x s ih =>
    rw [List.dropWhile_cons] at h
    split at h
    · exact ih h
    · rename_i hx
      injection h with h _
      subst h
      simpa using hx

theorem space_octet : octets " ".toList = [32] := by decide

/-- A frame is recognised, whatever follows. -/
theorem scan_frame {max : Nat} {m : List UInt8} (rest : List UInt8) (h0 : m ≠ []) (hm : m.length ≤ max) :
    scanFrame max (syslogFrame m ++ rest) = .frame m rest := by
  have hd := octets_digits (numeral_all (numeral_dec m.length))
  have hn : m.length ≠ 0 := by
    intro h; exact h0 (List.length_eq_zero_iff.1 h)
  have hsplit : syslogFrame m ++ rest = octets (dec m.length) ++ 32 :: (m ++ rest) := by
    unfold syslogFrame
    rw [space_octet]
    simp
  have hne : octets (dec m.length) ≠ [] := by
    intro h
    have := congrArg (List.map octetChar) h
    rw [hd.1] at this
    exact numeral_ne (numeral_dec _) this
  have hz : (octets (dec m.length)).head? ≠ some 48 := by
    intro h
    have h2 : ((octets (dec m.length)).map octetChar).head? = some '0' := by
      rw [List.head?_map, h]; rfl
    rw [hd.1] at h2
    rcases dec_canon m.length with hc | hc
    · rw [dec] at hc h2
      split at hc
      · rename_i h10
        rw [if_pos h10] at h2
        have : ∀ d : Fin 10, decDigit d.val = '0' → d.val = 0 := by decide
        exact hn (this ⟨_, h10⟩ (by simpa using h2))
      · have := List.length_pos_iff.2 (numeral_ne (numeral_dec (m.length / 10)))
        rw [List.length_append, List.length_singleton] at hc
        omega
    · exact hc h2
  have hs := octet_span (r := 32 :: (m ++ rest)) hd.2 (by
    intro c t h
    injection h with h _
    subst h; decide)
  unfold scanFrame
  rw [hsplit]
  simp only
  rw [hs.1, hs.2, if_neg hz]
  simp only
  rw [if_neg (by rintro (h | h); exacts [hne h, h rfl]), hd.1, (parseDigits_iff _ _).2 (numeral_dec _)]
  simp only
  rw [if_neg (by omega), if_neg (by rw [List.length_append]; omega), List.take_left, List.drop_left]

/-- Only frames are recognised. -/
theorem scan_inv {max : Nat} {buf m rest : List UInt8} (h : scanFrame max buf = .frame m rest) :
    buf = syslogFrame m ++ rest ∧ m ≠ [] ∧ m.length ≤ max := by
  unfold scanFrame at h
  simp only at h
  split at h
  · cases h
  · rename_i hz
    split at h
    · cases h
    · rename_i b r hr
      split at h
      · cases h
      · rename_i hc
        split at h
        · cases h
        · rename_i n hn
          split at h
          · split at h <;> cases h
          · rename_i hmax
            split at h
            · cases h
            · rename_i hl
              injection h with h1 h2
              have hb : b = 32 := by
                by_cases hb : b = 32
                · exact hb
                · exact absurd (.inr hb) hc
              have hall : ∀ x ∈ buf.takeWhile digitOctet, digitOctet x = true := octet_takeWhile
              have hnum := (parseDigits_iff _ _).1 hn
              have hcan : (buf.takeWhile digitOctet).map octetChar = dec n := by
                refine numeral_canon hnum (.inr ?_)
                intro h0
                rw [List.head?_map, Option.map_eq_some_iff] at h0
                obtain ⟨x, hx, h0⟩ := h0
                rw [octet_zero] at h0
                rw [h0] at hx
                exact hz hx
              have hlen : m.length = n := by rw [← h1, List.length_take]; omega
              have hn0 : n ≠ 0 := by
                rintro rfl
                rw [dec, if_pos (by omega)] at hcan
                refine hz ?_
                cases hx : buf.takeWhile digitOctet with
                | nil => rw [hx] at hcan; cases hcan
                | cons a t =>
                  rw [hx] at hcan
                  injection hcan with ha _
                  have : octetChar a = '0' := ha
                  rw [octet_zero] at this
                  rw [this]; rfl
              refine ⟨?_, ?_, by omega⟩
              · have := List.takeWhile_append_dropWhile (p := digitOctet) (l := buf)
                rw [hr, hb] at this
                unfold syslogFrame
                rw [← this, hlen, ← hcan, digits_octets hall, space_octet, ← h1, ← h2]
                simp
              · intro hm
                rw [hm] at hlen
                exact hn0 hlen.symm

theorem span_append {p : UInt8 → Bool} {a c : List UInt8} {x : UInt8} {t : List UInt8} (h : a.dropWhile p = x :: t) :
    (a ++ c).takeWhile p = a.takeWhile p ∧ (a ++ c).dropWhile p = x :: (t ++ c) := by
  have ha := List.takeWhile_append_dropWhile (p := p) (l := a)
  rw [h] at ha
  have := octet_span (p := p) (f := a.takeWhile p) (r := x :: (t ++ c)) octet_takeWhile (by
    intro y s hy
    injection hy with hy _
    subst hy
    exact octet_dropWhile _ _ h)
  have e : a ++ c = a.takeWhile p ++ x :: (t ++ c) := by
    conv => lhs; rw [← ha]
    simp
  rw [e]
  exact this

theorem scan_bad {max : Nat} {buf : List UInt8} (c : List UInt8) (h : scanFrame max buf = .bad) :
    scanFrame max (buf ++ c) = .bad := by
  unfold scanFrame at h ⊢
  simp only at h ⊢
  by_cases hz : (buf.takeWhile digitOctet).head? = some 48
  · have : ((buf ++ c).takeWhile digitOctet).head? = some 48 := by
      cases buf with
      | nil => cases hz
      | cons x t =>
        rw [List.takeWhile_cons] at hz
        rw [List.cons_append, List.takeWhile_cons]
        split at hz
        · rename_i hx
          rw [if_pos hx]
          exact hz
        · cases hz
    rw [if_pos this]
  · rw [if_neg hz] at h
    cases hd : buf.dropWhile digitOctet with
    | nil => rw [hd] at h; cases h
    | cons b r =>
      rw [hd] at h
      obtain ⟨e1, e2⟩ := span_append (c := c) hd
      rw [e1, e2, if_neg hz]
      simp only at h ⊢
      split at h
      · rename_i hc
        rw [if_pos hc]
      · rename_i hc
        rw [if_neg hc]
        split at h
        · rfl
        · rename_i n hn
          split at h
          · rename_i hm
            rw [if_pos hm]
            split at h
            · cases h
            · rename_i hl
              rw [if_neg (by rw [List.length_append]; omega)]
          · split at h <;> cases h

section drain
variable {max : Nat} (parse : List UInt8 → Option SyslogMsg) {st : Bool} {buf : List UInt8}

theorem drain_nul (h : st = true ∧ buf.head? = some 0) : drainFrames max parse st buf = ([], none) := by
  rw [drainFrames.eq_def, if_pos h]

theorem drain_more (h : ¬ (st = true ∧ buf.head? = some 0)) (hs : scanFrame max buf = .more) :
    drainFrames max parse st buf = ([], some buf) := by
  rw [drainFrames.eq_def, if_neg h]
  split
  · rfl
  all_goals (rename_i h2; rw [hs] at h2; cases h2)

theorem drain_bad (h : ¬ (st = true ∧ buf.head? = some 0)) (hs : scanFrame max buf = .bad) :
    drainFrames max parse st buf = ([.bad], none) := by
  rw [drainFrames.eq_def, if_neg h]
  split
  · rename_i h2; rw [hs] at h2; cases h2
  · rfl
  · rename_i h2; rw [hs] at h2; cases h2

theorem drain_frame {m rest : List UInt8} (h : ¬ (st = true ∧ buf.head? = some 0)) (hs : scanFrame max buf = .frame m rest) :
    drainFrames max parse st buf = match parse m with
      | none => ([.bad], none)
      | some msg => (.msg msg :: (drainFrames max parse true rest).1, (drainFrames max parse true rest).2) := by
  rw [drainFrames.eq_def, if_neg h]
  split
  · rename_i h2; rw [hs] at h2; cases h2
  · rename_i h2; rw [hs] at h2; cases h2
  · rename_i m' rest' h2
    rw [hs] at h2
    injection h2 with e1 e2
    subst e1 e2
    rfl

end drain

theorem drain_append {max : Nat} (parse : List UInt8 → Option SyslogMsg) (st : Bool) (buf c : List UInt8) :
    drainFrames max parse st (buf ++ c) =
      match (drainFrames max parse st buf).2 with
      | none => ((drainFrames max parse st buf).1, none)
      | some b =>
        ((drainFrames max parse st buf).1 ++ (drainFrames max parse (st || !(drainFrames max parse st buf).1.isEmpty) (b ++ c)).1,
          (drainFrames max parse (st || !(drainFrames max parse st buf).1.isEmpty) (b ++ c)).2) := by
  induction hl : buf.length using Nat.strongRecOn generalizing buf st with
  | _ n ih =>
    by_cases h0 : st = true ∧ buf.head? = some 0
    · rw [drain_nul parse h0, drain_nul parse]
      refine ⟨h0.1, ?_⟩
      cases buf with
      | nil => cases h0.2
      | cons x t => exact h0.2
    · cases hs : scanFrame max buf with
      | more => rw [drain_more parse h0 hs]; simp
      | bad =>
        rw [drain_bad parse h0 hs]
        refine drain_bad parse ?_ (scan_bad c hs)
        rintro ⟨h1, h2⟩
        cases buf with
        | nil => cases hs
        | cons x t => exact h0 ⟨h1, h2⟩
      | frame m rest =>
        obtain ⟨hb, hm0, hmax⟩ := scan_inv hs
        have hs2 : scanFrame max (buf ++ c) = .frame m (rest ++ c) := by
          rw [hb, List.append_assoc]
          exact scan_frame _ hm0 hmax
        have h0' : ¬ (st = true ∧ (buf ++ c).head? = some 0) := by
          cases buf with
          | nil => cases hs
          | cons x t => exact h0
        rw [drain_frame parse h0 hs, drain_frame parse h0' hs2]
        have hrec := ih rest.length (by rw [← hl]; exact scanFrame_shorter hs) true rest rfl
        cases hp : parse m with
        | none => rfl
        | some msg =>
          simp only
          rw [hrec]
          cases hd : (drainFrames max parse true rest).2 with
          | none => rfl
          | some b => simp

end LogCache
