import Verif.Model.Num
import Verif.Spec.Num

/-! # The decimal parsers are correct -/

namespace LogCache
open Spec

theorem digitVal_digit {d : Nat} (h : d < 10) : digitVal (decDigit d) = some d := by
  have : ∀ d : Fin 10, digitVal (decDigit d.val) = some d.val := by decide
  exact this ⟨d, h⟩

theorem digitVal_some {c : Char} {d : Nat} (h : digitVal c = some d) : d < 10 ∧ c = decDigit d := by
  unfold digitVal at h
  split at h
  · rename_i hc
    injection h with h
    have h0 : '0'.toNat = 48 := rfl
    have h9 : '9'.toNat = 57 := rfl
    rw [h0] at h hc
    rw [h9] at hc
    refine ⟨by omega, ?_⟩
    have hd : ∀ d : Fin 10, (decDigit d.val).toNat = d.val + 48 := by decide
    have := hd ⟨d, by omega⟩
    simp only at this
    apply Char.ext
    apply UInt32.toNat.inj
    show c.toNat = (decDigit d).toNat
    omega
  · cases h

theorem digitsLoop_append (a b : Str) (acc : Nat) :
    digitsLoop acc (a ++ b) = (digitsLoop acc a).bind fun n => digitsLoop n b := by
  induction a generalizing acc with
  | nil => rfl
  | cons c cs ih =>
    simp only [List.cons_append, digitsLoop]
    cases digitVal c with
    | none => rfl
    | some d => exact ih _

theorem numeral_ne {s : Str} {n : Nat} (h : Numeral s n) : s ≠ [] := by
  cases h <;> simp

theorem parseDigits_eq {s : Str} (h : s ≠ []) : parseDigits s = digitsLoop 0 s := by
  cases s with
  | nil => exact absurd rfl h
  | cons c cs => rfl

theorem parseDigits_iff (s : Str) (n : Nat) : parseDigits s = some n ↔ Numeral s n := by
  constructor
  · intro h
    have hne : s ≠ [] := by intro hs; rw [hs] at h; cases h
    rw [parseDigits_eq hne] at h
    have key : ∀ (t : Str), t ≠ [] → ∀ n, digitsLoop 0 t = some n → Numeral t n := by
      intro t
      rw [← List.reverse_reverse t]
      generalize t.reverse = r
      induction r with
      | nil => intro h; simp at h
      | cons c r ih =>
        intro _ n hn
        rw [List.reverse_cons, digitsLoop_append] at hn
        obtain ⟨k, hk, hd⟩ := Option.bind_eq_some_iff.1 hn
        simp only [digitsLoop] at hd
        cases hv : digitVal c with
        | none => rw [hv] at hd; cases hd
        | some d =>
          rw [hv] at hd
          injection hd with hd
          obtain ⟨hd10, hc⟩ := digitVal_some hv
          rw [List.reverse_cons, hc, ← hd]
          by_cases hr : r = []
          · subst hr
            simp only [List.reverse_nil, digitsLoop] at hk
            injection hk with hk
            subst hk
            simp only [List.reverse_nil, List.nil_append, Nat.zero_mul, Nat.zero_add]
            exact .one hd10
          · rw [Nat.mul_comm]
            exact .snoc (ih (by simpa using hr) k hk) hd10
    exact key s hne n h
  · intro h
    rw [parseDigits_eq (numeral_ne h)]
    induction h with
    | one h => simp only [digitsLoop, digitVal_digit h]; simp
    | snoc hs h ih =>
      rw [digitsLoop_append, ih]
      simp only [Option.bind_some, digitsLoop, digitVal_digit h]
      rw [Nat.mul_comm]

theorem numeral_dec (n : Nat) : Numeral (dec n) n := by
  induction n using Nat.strongRecOn with
  | _ n ih =>
    rw [dec]
    split
    · exact .one (by assumption)
    · have := ih (n / 10) (by omega)
      have h2 := Numeral.snoc this (Nat.mod_lt n (by decide : 10 > 0))
      rwa [Nat.div_add_mod] at h2

theorem parseUint64_iff (s : Str) (n : Nat) : parseUint64 s = some n ↔ IsUint64 s n := by
  unfold parseUint64 IsUint64
  rw [← parseDigits_iff]
  cases h : parseDigits s with
  | none => simp
  | some k =>
    simp only
    by_cases hk : k < 2 ^ 64
    · rw [if_pos hk]; constructor
      · intro h; injection h with h; subst h; exact ⟨rfl, hk⟩
      · intro h; exact h.1
    · rw [if_neg hk]; constructor
      · intro h; cases h
      · rintro ⟨h, h2⟩; injection h with h; subst h; exact absurd h2 hk

theorem numeral_head {s : Str} {n : Nat} (h : Numeral s n) : ∀ c ∈ s, ∃ d, d < 10 ∧ c = decDigit d := by
  induction h with
  | one h => intro c hc; rw [List.mem_singleton] at hc; exact ⟨_, h, hc⟩
  | snoc hs h ih =>
    intro c hc
    rcases List.mem_append.1 hc with hc | hc
    · exact ih c hc
    · rw [List.mem_singleton] at hc; exact ⟨_, h, hc⟩

theorem digit_ne_sign {d : Nat} (h : d < 10) : decDigit d ≠ '-' ∧ decDigit d ≠ '+' := by
  have : ∀ d : Fin 10, decDigit d.val ≠ '-' ∧ decDigit d.val ≠ '+' := by decide
  exact this ⟨d, h⟩

theorem numeral_no_sign {s : Str} {n : Nat} (h : Numeral s n) (t : Str) : s ≠ '-' :: t ∧ s ≠ '+' :: t := by
  constructor <;> intro hs <;> obtain ⟨d, hd, hc⟩ := numeral_head h _ (hs ▸ List.mem_cons_self ..)
  · exact (digit_ne_sign hd).1 hc.symm
  · exact (digit_ne_sign hd).2 hc.symm

theorem numeral_unique {s : Str} {n m : Nat} (h1 : Numeral s n) (h2 : Numeral s m) : n = m := by
  have a := (parseDigits_iff s n).2 h1
  have b := (parseDigits_iff s m).2 h2
  rw [a] at b
  injection b

theorem parseInt64_iff (s : Str) (n : Int) : parseInt64 s = some n ↔ IsInt64 s n := by
  have e63 : (2 : Int) ^ 63 = ((2 ^ 63 : Nat) : Int) := by norm_cast
  have pos : ∀ (ds : Str) (pre : Str → Prop),
      ((match parseDigits ds with
        | some n => if n < 2 ^ 63 then some (n : Int) else none
        | none => none) = some n ↔ -2 ^ 63 ≤ n ∧ n < 2 ^ 63 ∧ ∃ k, Numeral ds k ∧ n = k) := by
    intro ds _
    cases h : parseDigits ds with
    | none =>
      simp only
      constructor
      · intro h; cases h
      · rintro ⟨_, _, k, hk, _⟩; rw [(parseDigits_iff ds k).2 hk] at h; cases h
    | some k =>
      have hk' := (parseDigits_iff ds k).1 h
      simp only
      by_cases hk : k < 2 ^ 63
      · rw [if_pos hk]
        constructor
        · intro h; injection h with h; exact ⟨by omega, by omega, k, hk', h.symm⟩
        · rintro ⟨_, _, k', hk2, rfl⟩; rw [numeral_unique hk' hk2]
      · rw [if_neg hk]
        constructor
        · intro h; cases h
        · rintro ⟨_, h2, k', hk2, rfl⟩; rw [← numeral_unique hk' hk2] at h2; omega
  unfold parseInt64 IsInt64
  split
  · rename_i ds
    cases h : parseDigits ds with
    | none =>
      simp only
      constructor
      · intro h; cases h
      · rintro ⟨_, _, ds', k, hk, ⟨h1, _⟩ | ⟨h1, _⟩ | ⟨h1, _⟩⟩
        · exact absurd h1.symm (numeral_no_sign hk _).1
        · cases h1
        · injection h1 with _ h1; subst h1; rw [(parseDigits_iff ds k).2 hk] at h; cases h
    | some k =>
      have hk' := (parseDigits_iff ds k).1 h
      simp only
      by_cases hk : k ≤ 2 ^ 63
      · rw [if_pos hk]
        constructor
        · intro h; injection h with h
          exact ⟨by omega, by omega, ds, k, hk', .inr (.inr ⟨rfl, h.symm⟩)⟩
        · rintro ⟨_, _, ds', k', hk2, ⟨h1, _⟩ | ⟨h1, _⟩ | ⟨h1, h2⟩⟩
          · exact absurd h1.symm (numeral_no_sign hk2 _).1
          · cases h1
          · injection h1 with _ h1; subst h1; rw [h2, numeral_unique hk' hk2]
      · rw [if_neg hk]
        constructor
        · intro h; cases h
        · rintro ⟨hlo, _, ds', k', hk2, ⟨h1, _⟩ | ⟨h1, _⟩ | ⟨h1, h2⟩⟩
          · exact absurd h1.symm (numeral_no_sign hk2 _).1
          · cases h1
          · injection h1 with _ h1; subst h1; rw [← numeral_unique hk' hk2] at h2; omega
  · rename_i ds
    refine (pos ds fun _ => True).trans ?_
    constructor
    · rintro ⟨a, b, k, hk, hn⟩; exact ⟨a, b, ds, k, hk, .inr (.inl ⟨rfl, hn⟩)⟩
    · rintro ⟨a, b, ds', k, hk, ⟨h1, _⟩ | ⟨h1, hn⟩ | ⟨h1, _⟩⟩
      · exact absurd h1.symm (numeral_no_sign hk _).2
      · injection h1 with _ h1; subst h1; exact ⟨a, b, k, hk, hn⟩
      · cases h1
  · rename_i hm hp
    refine (pos s fun _ => True).trans ?_
    constructor
    · rintro ⟨a, b, k, hk, hn⟩; exact ⟨a, b, s, k, hk, .inl ⟨rfl, hn⟩⟩
    · rintro ⟨a, b, ds', k, hk, ⟨h1, hn⟩ | ⟨h1, hn⟩ | ⟨h1, _⟩⟩
      · subst h1; exact ⟨a, b, k, hk, hn⟩
      · exact absurd h1 (hp ds')
      · exact absurd h1 (hm ds')

/-- Numbers written in the usual notation are read back. -/
theorem parseUint64_dec {n : Nat} (h : n < 2 ^ 64) : parseUint64 (dec n) = some n :=
  (parseUint64_iff _ _).2 ⟨numeral_dec n, h⟩

theorem parseInt64_dec {n : Int} (h1 : -2 ^ 63 ≤ n) (h2 : n < 2 ^ 63) : parseInt64 (decInt n) = some n := by
  refine (parseInt64_iff _ _).2 ⟨h1, h2, dec n.natAbs, n.natAbs, numeral_dec _, ?_⟩
  unfold decInt
  split
  · exact .inr (.inr ⟨rfl, by omega⟩)
  · exact .inl ⟨rfl, by omega⟩

end LogCache
