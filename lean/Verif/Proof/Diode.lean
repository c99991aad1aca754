import Verif.Spec.Diode

/-! # The ring buffer is a queue that loses only when it is full -/

namespace LogCache

/-- The buffer after `hist` was set: a bucket holds what was set with its number, the
newest of its place, and nothing unread within the ring's size is missing. -/
structure RingInv {ε : Type} (d : Diode ε) (hist : List ε) : Prop where
  pos : 0 < d.size
  write : d.writeIndex = hist.length
  read : d.readIndex ≤ hist.length
  slot : ∀ i s e, d.slots i = some (s, e) → s < hist.length ∧ s % d.size = i ∧ hist[s]? = some e ∧
    hist.length ≤ s + d.size
  kept : ∀ s, d.readIndex ≤ s → s < hist.length → hist.length ≤ s + d.size →
    ∃ e, d.slots (s % d.size) = some (s, e)

theorem mod_ne_of_close {a b n : Nat} (h1 : a < b) (h2 : b < a + n) : a % n ≠ b % n := by
  intro h
  have h3 := Nat.sub_mod_eq_zero_of_mod_eq h.symm
  have h4 : (b - a) % n = b - a := Nat.mod_eq_of_lt (by omega)
  omega

theorem RingInv.fresh {ε : Type} (n : Nat) (h : 0 < n) : RingInv ({ size := n } : Diode ε) [] :=
  ⟨h, rfl, Nat.le_refl _, fun _ _ _ h => (nomatch h), fun _ _ h => (nomatch h)⟩

theorem RingInv.set {ε : Type} {d : Diode ε} {hist : List ε} (h : RingInv d hist) (e : ε) :
    RingInv (d.set e) (hist ++ [e]) := by
  refine ⟨h.pos, ?_, ?_, ?_, ?_⟩
  · simp [Diode.set, h.write]
  · simp only [Diode.set, Diode.store, List.length_append]
    have := h.read
    omega
  · intro i s x hs
    simp only [Diode.set, Diode.store] at hs ⊢
    by_cases hi : i = d.writeIndex % d.size
    · rw [if_pos hi] at hs
      cases hs
      refine ⟨by simp [h.write], hi.symm, ?_, by have := h.pos; simp [h.write]; omega⟩
      rw [h.write]; simp
    · rw [if_neg hi] at hs
      obtain ⟨h1, h2, h3, h4⟩ := h.slot i s x hs
      refine ⟨by simp; omega, h2, by rw [List.getElem?_append_left h1]; exact h3, ?_⟩
      simp only [List.length_append, List.length_singleton]
      by_cases h5 : hist.length = s + d.size
      · exfalso
        apply hi
        rw [h.write, h5, Nat.add_mod_right, h2]
      · omega
  · intro s h1 h2 h3
    simp only [Diode.set, Diode.store, List.length_append, List.length_singleton] at *
    by_cases hs : s = hist.length
    · refine ⟨e, ?_⟩
      rw [hs, h.write, if_pos rfl]
    · have hne : s % d.size ≠ d.writeIndex % d.size := by
        rw [h.write]
        exact mod_ne_of_close (by omega) (by omega)
      rw [if_neg hne]
      exact h.kept s h1 (by omega) (by omega)

/-- What `TryNext` does. -/
theorem RingInv.next {ε : Type} {d : Diode ε} {hist : List ε} (h : RingInv d hist) :
    (d.readIndex = hist.length ∧ ∃ d', d.tryNext = (d', none, 0) ∧ RingInv d' hist ∧
      d'.readIndex = d.readIndex ∧ d'.size = d.size) ∨
    (∃ s e d', d.readIndex ≤ s ∧ s < hist.length ∧ hist.length ≤ s + d.size ∧ hist[s]? = some e ∧
      (s = d.readIndex ∨ d.readIndex + d.size ≤ s) ∧
      d.tryNext = (d', some e, s - d.readIndex) ∧ RingInv d' hist ∧ d'.readIndex = s + 1 ∧ d'.size = d.size) := by
  have hn := h.pos
  have hcl : ∀ s0 e0, d.slots (d.readIndex % d.size) = some (s0, e0) → ∀ r', d.readIndex ≤ r' →
      r' ≤ hist.length → (d.readIndex ≤ s0 → s0 < r') →
      RingInv { d.store (d.readIndex % d.size) none with readIndex := r' } hist := by
    intro s0 e0 h0 r' hr1 hr2 hr3
    refine ⟨hn, h.write, hr2, ?_, ?_⟩
    · intro i s e hs
      simp only [Diode.store] at hs ⊢
      by_cases hi : i = d.readIndex % d.size
      · rw [if_pos hi] at hs; nomatch hs
      · rw [if_neg hi] at hs; exact h.slot i s e hs
    · intro s h1 h2 h3
      simp only [Diode.store] at *
      obtain ⟨e, he⟩ := h.kept s (by omega) h2 h3
      by_cases hi : s % d.size = d.readIndex % d.size
      · rw [hi, h0] at he
        cases he
        have := hr3 (by omega)
        omega
      · rw [if_neg hi]; exact ⟨e, he⟩
  by_cases hr : d.readIndex = hist.length
  · left
    refine ⟨hr, ?_⟩
    rw [Diode.tryNext]
    cases h0 : d.slots (d.readIndex % d.size) with
    | none => exact ⟨d, rfl, h, rfl, rfl⟩
    | some p =>
      obtain ⟨s0, e0⟩ := p
      have hlt := (h.slot _ _ _ h0).1
      simp only
      rw [if_pos (by omega)]
      exact ⟨_, rfl, hcl s0 e0 h0 d.readIndex (Nat.le_refl _) h.read (by omega), rfl, rfl⟩
  · right
    have hlt : d.readIndex < hist.length := by have := h.read; omega
    -- the newest number of this place
    obtain ⟨s, hs1, hs2, hs3, hs4, hs5⟩ : ∃ s, d.readIndex ≤ s ∧ s < hist.length ∧ hist.length ≤ s + d.size ∧
        s % d.size = d.readIndex % d.size ∧ (s = d.readIndex ∨ d.readIndex + d.size ≤ s) := by
      refine ⟨d.readIndex + d.size * ((hist.length - 1 - d.readIndex) / d.size), by omega, ?_, ?_, ?_, ?_⟩
      · have := Nat.mul_div_le (hist.length - 1 - d.readIndex) d.size
        omega
      · have := Nat.lt_mul_div_succ (hist.length - 1 - d.readIndex) hn
        rw [Nat.mul_add] at this
        omega
      · rw [Nat.add_mul_mod_self_left]
      · rcases Nat.eq_zero_or_pos ((hist.length - 1 - d.readIndex) / d.size) with h0 | h0
        · left; rw [h0]; simp
        · right
          have := Nat.mul_le_mul_left d.size h0
          omega
    obtain ⟨e, he⟩ := h.kept s hs1 hs2 hs3
    rw [hs4] at he
    obtain ⟨_, _, h6, _⟩ := h.slot _ _ _ he
    refine ⟨s, e, _, hs1, hs2, hs3, h6, hs5, ?_, hcl s e he (s + 1) (by omega) (by omega) (by omega), rfl, rfl⟩
    rw [Diode.tryNext, he]
    simp only
    rw [if_neg (by omega)]

end LogCache
