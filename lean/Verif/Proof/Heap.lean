import Verif.Model.Heap
/-! # `container/heap` keeps the heap order and pops a minimum -/
namespace LogCache
namespace ExpHeap

/-- Key at a slot (0 outside, never used). -/
def K (h : ExpHeap) (i : Nat) : Int :=
  match h[i]? with
  | some a => a.timestamp
  | none => 0

/-- Heap order on the first `n` slots. -/
def HeapOn (h : ExpHeap) (n : Nat) : Prop :=
  ∀ c, 0 < c → c < n → K h ((c - 1) / 2) ≤ K h c

/-- Heap order. -/
def IsHeap (h : ExpHeap) : Prop := HeapOn h h.length

theorem less_iff {h : ExpHeap} {i j : Nat} (hi : i < h.length) (hj : j < h.length) :
    less h i j = decide (K h i < K h j) := by
  simp [less, K, hi, hj]

theorem length_swap (h : ExpHeap) (i j : Nat) : (swap h i j).length = h.length := by
  unfold swap; split <;> simp

theorem swap_perm (h : ExpHeap) (i j : Nat) : (swap h i j).Perm h := by
  unfold swap
  split
  · rename_i a b ha hb
    obtain ⟨hi, rfl⟩ := List.getElem?_eq_some_iff.1 ha
    obtain ⟨hj, rfl⟩ := List.getElem?_eq_some_iff.1 hb
    exact List.set_set_perm hi hj
  · exact List.Perm.refl _

theorem getElem?_swap {h : ExpHeap} {i j : Nat} (hi : i < h.length) (hj : j < h.length) (x : Nat) :
    (swap h i j)[x]? = if x = j then h[i]? else if x = i then h[j]? else h[x]? := by
  unfold swap
  simp only [List.getElem?_eq_getElem hi, List.getElem?_eq_getElem hj, List.getElem?_set]
  simp only [List.length_set]
  by_cases h1 : j = x
  · subst h1; simp [hj]
  · by_cases h2 : i = x
    · subst h2; simp [hi, h1, Ne.symm h1]
    · simp [h1, h2, Ne.symm h1, Ne.symm h2]

theorem K_swap {h : ExpHeap} {i j : Nat} (hi : i < h.length) (hj : j < h.length) (x : Nat) :
    K (swap h i j) x = if x = j then K h i else if x = i then K h j else K h x := by
  unfold K
  rw [getElem?_swap hi hj]
  by_cases h1 : x = j
  · simp only [if_pos h1]
  · by_cases h2 : x = i
    · simp only [if_neg h1, if_pos h2]
    · simp only [if_neg h1, if_neg h2]

/-! ## up -/

theorem up_perm (fuel : Nat) (h : ExpHeap) (j : Nat) : (up fuel h j).Perm h := by
  induction fuel generalizing h j with
  | zero => exact List.Perm.refl _
  | succ n ih =>
    simp only [up]
    split
    · exact List.Perm.refl _
    · exact (ih _ _).trans (swap_perm _ _ _)

theorem up_heap (fuel : Nat) (h : ExpHeap) (j : Nat) (hj : j < h.length) (hf : j < fuel)
    (h1 : ∀ c, 0 < c → c < h.length → c ≠ j → K h ((c - 1) / 2) ≤ K h c)
    (h2 : 0 < j → ∀ c, 0 < c → c < h.length → (c - 1) / 2 = j → K h ((j - 1) / 2) ≤ K h c) :
    IsHeap (up fuel h j) := by
  induction fuel generalizing h j with
  | zero => omega
  | succ n ih =>
    have hi : (j - 1) / 2 < h.length := by omega
    simp only [up]
    split
    · rename_i hc
      intro c hc0 hcl
      by_cases hcj : c = j
      · subst hcj
        rcases hc with hc | hc
        · omega
        · rw [less_iff hcl hi] at hc; simp at hc; omega
      · exact h1 c hc0 hcl hcj
    · rename_i hc
      have hne : (j - 1) / 2 ≠ j := fun h => hc (Or.inl h)
      have hlt : K h j < K h ((j - 1) / 2) := by
        have : ¬ less h j ((j - 1) / 2) = false := fun h => hc (Or.inr h)
        rw [less_iff hj hi] at this; simpa using this
      have hj0 : 0 < j := by omega
      apply ih
      · rw [length_swap]; omega
      · omega
      · intro c hc0 hcl hci
        rw [length_swap] at hcl
        rw [K_swap hi hj, K_swap hi hj]
        by_cases hcj : c = j
        · subst hcj
          simp [Ne.symm hne, hne]; omega
        · rw [if_neg hcj, if_neg hci]
          by_cases hp : (c - 1) / 2 = j
          · rw [if_pos hp]
            exact h2 hj0 c hc0 hcl hp
          · rw [if_neg hp]
            by_cases hp2 : (c - 1) / 2 = (j - 1) / 2
            · rw [if_pos hp2]
              have := h1 c hc0 hcl hcj
              rw [hp2] at this; omega
            · rw [if_neg hp2]; exact h1 c hc0 hcl hcj
      · intro hi0 c hc0 hcl hcp
        rw [length_swap] at hcl
        rw [K_swap hi hj, K_swap hi hj]
        have hpp : ((j - 1) / 2 - 1) / 2 ≠ j := by omega
        have hpp2 : ((j - 1) / 2 - 1) / 2 ≠ (j - 1) / 2 := by omega
        rw [if_neg hpp, if_neg hpp2]
        have hgp := h1 ((j - 1) / 2) hi0 hi hne
        by_cases hcj : c = j
        · rw [if_pos hcj]; exact hgp
        · rw [if_neg hcj]
          by_cases hci : c = (j - 1) / 2
          · omega
          · rw [if_neg hci]
            have := h1 c hc0 hcl hcj
            rw [hcp] at this; omega

/-! ## down -/

theorem length_up (fuel : Nat) (h : ExpHeap) (j : Nat) : (up fuel h j).length = h.length :=
  (up_perm fuel h j).length_eq

theorem down_perm (fuel : Nat) (h : ExpHeap) (i n : Nat) : (down fuel h i n).Perm h := by
  induction fuel generalizing h i with
  | zero => exact List.Perm.refl _
  | succ f ih =>
    simp only [down]
    split
    · exact List.Perm.refl _
    · split
      · split
        · exact List.Perm.refl _
        · exact (ih _ _).trans (swap_perm _ _ _)
      · split
        · exact List.Perm.refl _
        · exact (ih _ _).trans (swap_perm _ _ _)

theorem length_down (fuel : Nat) (h : ExpHeap) (i n : Nat) : (down fuel h i n).length = h.length :=
  (down_perm fuel h i n).length_eq

/-- `down` leaves slots at or beyond `n` alone. -/
theorem down_outside (fuel : Nat) (h : ExpHeap) (i n x : Nat) (hn : n ≤ h.length) (hi : i < n)
    (hx : n ≤ x) : (down fuel h i n)[x]? = h[x]? := by
  induction fuel generalizing h i with
  | zero => rfl
  | succ f ih =>
    simp only [down]
    split
    · rfl
    · rename_i hj1
      generalize hj : (if 2 * i + 1 + 1 < n ∧ less h (2 * i + 1 + 1) (2 * i + 1) = true
        then 2 * i + 1 + 1 else 2 * i + 1) = j
      have hjn : j < n := by
        subst hj; split
        · rename_i h; omega
        · omega
      split
      · rfl
      · rw [ih _ _ (by rw [length_swap]; exact hn) hjn, getElem?_swap (by omega) (by omega)]
        rw [if_neg (by omega), if_neg (by omega)]

theorem down_heap (fuel : Nat) (h : ExpHeap) (i n : Nat) (hn : n ≤ h.length) (hi : i < n)
    (hf : n ≤ fuel + i)
    (h1 : ∀ c, 0 < c → c < n → (c - 1) / 2 ≠ i → K h ((c - 1) / 2) ≤ K h c)
    (h2 : 0 < i → ∀ c, 0 < c → c < n → (c - 1) / 2 = i → K h ((i - 1) / 2) ≤ K h c) :
    HeapOn (down fuel h i n) n := by
  induction fuel generalizing h i with
  | zero => omega
  | succ f ih =>
    simp only [down]
    split
    · rename_i hge
      intro c hc0 hcn
      exact h1 c hc0 hcn (by omega)
    · rename_i hj1
      have hl1 : 2 * i + 1 < h.length := by omega
      have hli : i < h.length := by omega
      generalize hj : (if 2 * i + 1 + 1 < n ∧ less h (2 * i + 1 + 1) (2 * i + 1) = true
        then 2 * i + 1 + 1 else 2 * i + 1) = j
      have hjp : j < n ∧ (j - 1) / 2 = i ∧ 0 < j ∧ i < j ∧
          ∀ c, 0 < c → c < n → (c - 1) / 2 = i → K h j ≤ K h c := by
        subst hj
        split
        · rename_i hc
          have hlt : K h (2 * i + 1 + 1) < K h (2 * i + 1) := by
            have := hc.2
            rw [less_iff (by omega) hl1] at this; simpa using this
          refine ⟨by omega, by omega, by omega, by omega, ?_⟩
          intro c hc0 hcn hcp
          have : c = 2 * i + 1 ∨ c = 2 * i + 1 + 1 := by omega
          rcases this with rfl | rfl <;> omega
        · rename_i hc
          refine ⟨by omega, by omega, by omega, by omega, ?_⟩
          intro c hc0 hcn hcp
          have : c = 2 * i + 1 ∨ c = 2 * i + 1 + 1 := by omega
          rcases this with rfl | rfl
          · omega
          · have hnl : ¬ less h (2 * i + 1 + 1) (2 * i + 1) = true := fun hl => hc ⟨hcn, hl⟩
            rw [less_iff (by omega) hl1] at hnl
            simpa using hnl
      obtain ⟨hjn, hjp, hj0, hij, hmin⟩ := hjp
      have hlj : j < h.length := by omega
      split
      · rename_i hnl
        rw [less_iff hlj hli] at hnl
        have hnl : K h i ≤ K h j := by simpa using hnl
        intro c hc0 hcn
        by_cases hp : (c - 1) / 2 = i
        · have := hmin c hc0 hcn hp
          rw [hp]; omega
        · exact h1 c hc0 hcn hp
      · rename_i hnl
        have hlt : K h j < K h i := by
          rw [less_iff hlj hli] at hnl; simpa using hnl
        apply ih
        · rw [length_swap]; exact hn
        · exact hjn
        · omega
        · intro c hc0 hcn hp
          rw [K_swap hli hlj, K_swap hli hlj]
          rw [if_neg hp]
          by_cases hp2 : (c - 1) / 2 = i
          · rw [if_pos hp2]
            by_cases hcj : c = j
            · rw [if_pos hcj]; omega
            · rw [if_neg hcj, if_neg (by omega)]
              exact hmin c hc0 hcn hp2
          · rw [if_neg hp2]
            have hcj : c ≠ j := by intro hc; subst hc; exact hp2 hjp
            rw [if_neg hcj]
            by_cases hci : c = i
            · subst hci
              rw [if_pos rfl]
              exact h2 hc0 j hj0 hjn hjp
            · rw [if_neg hci]; exact h1 c hc0 hcn hp2
        · intro _ c hc0 hcn hcp
          rw [K_swap hli hlj, K_swap hli hlj]
          rw [hjp, if_neg (by omega), if_pos rfl, if_neg (by omega), if_neg (by omega)]
          have := h1 c hc0 hcn (by omega)
          rw [hcp] at this; exact this

/-! ## push and pop -/

theorem push_perm (h : ExpHeap) (x : Expiration) : (push h x).Perm (x :: h) := by
  unfold push
  refine (up_perm _ _ _).trans ?_
  exact List.perm_append_singleton x h

theorem push_heap {h : ExpHeap} (hh : IsHeap h) (x : Expiration) : IsHeap (push h x) := by
  unfold push
  apply up_heap
  · simp
  · simp
  · intro c hc0 hcl hcj
    simp at hcl hcj
    have hk : ∀ i, i < h.length → K (h ++ [x]) i = K h i := by
      intro i hi; unfold K; rw [List.getElem?_append_left hi]
    rw [hk _ (by omega), hk _ (by omega)]
    exact hh c hc0 (by omega)
  · intro _ c hc0 hcl hcp
    simp at hcl hcp; omega

theorem heap_min {h : ExpHeap} {n : Nat} (hh : HeapOn h n) (i : Nat) (hi : i < n) :
    K h 0 ≤ K h i := by
  induction i using Nat.strongRecOn with
  | _ i ih =>
    by_cases h0 : i = 0
    · subst h0; omega
    · have h1 := hh i (by omega) hi
      have h2 := ih ((i - 1) / 2) (by omega) (by omega)
      omega

theorem pop_none_iff (h : ExpHeap) : pop h = none ↔ h = [] := by
  cases h with
  | nil => simp [pop]
  | cons a t =>
    simp only [pop, popLast]
    split
    · rename_i hl
      rw [List.getLast?_eq_none_iff] at hl
      have := congrArg List.length hl
      rw [length_down, length_swap] at this
      simp at this
    · simp

theorem pop_spec {h h' : ExpHeap} {x : Expiration} (hh : IsHeap h) (hp : pop h = some (x, h')) :
    (x :: h').Perm h ∧ IsHeap h' ∧ ∀ y ∈ h, x.timestamp ≤ y.timestamp := by
  cases h with
  | nil => simp [pop] at hp
  | cons a t =>
    simp only [pop, popLast] at hp
    generalize hd : down (a :: t).length (swap (a :: t) 0 ((a :: t).length - 1)) 0
      ((a :: t).length - 1) = D at hp
    have hlen : D.length = t.length + 1 := by
      rw [← hd, length_down, length_swap]; simp
    have hperm : D.Perm (a :: t) := by
      rw [← hd]; exact (down_perm _ _ _ _).trans (swap_perm _ _ _)
    have hlast : D[t.length]? = some a := by
      by_cases ht : t.length = 0
      · have : t = [] := List.length_eq_zero_iff.1 ht
        subst this
        rw [← hd]; simp [down, swap]
      · rw [← hd, down_outside _ _ _ _ _ (by rw [length_swap]; simp) (by simp; omega) (by simp),
          getElem?_swap (by simp) (by simp)]
        simp
    have hgl : D.getLast? = some a := by
      rw [List.getLast?_eq_getElem?, hlen]; simpa using hlast
    rw [hgl] at hp
    simp at hp
    obtain ⟨rfl, rfl⟩ := hp
    have hDne : D ≠ [] := by intro h; rw [h] at hlen; simp at hlen
    have hsplit : D.dropLast ++ [a] = D := by
      have h1 := List.dropLast_concat_getLast hDne
      have h2 : D.getLast hDne = a := by
        rw [List.getLast?_eq_some_getLast hDne] at hgl; exact Option.some.inj hgl
      rw [h2] at h1; exact h1
    refine ⟨?_, ?_, ?_⟩
    · refine List.Perm.trans ?_ hperm
      conv => rhs; rw [← hsplit]
      exact (List.perm_append_singleton a D.dropLast).symm
    · -- heap order of the rest
      have hdl : D.dropLast.length = t.length := by simp [hlen]
      have hK : ∀ i, i < t.length → K D.dropLast i = K D i := by
        intro i hi
        unfold K
        rw [← hsplit, List.getElem?_append_left (by omega)]
        simp
      intro c hc0 hcl
      rw [hdl] at hcl
      rw [hK _ (by omega), hK _ hcl]
      have hheap : HeapOn D t.length := by
        rw [← hd]
        by_cases ht : t.length = 0
        · omega
        · apply down_heap
          · rw [length_swap]; simp
          · simp; omega
          · simp
          · intro c hc0 hcn hcp
            simp at hcn
            rw [K_swap (by simp) (by simp), K_swap (by simp) (by simp)]
            simp only [List.length_cons, Nat.add_sub_cancel]
            rw [if_neg (by omega), if_neg hcp, if_neg (by omega), if_neg (by omega)]
            exact hh c hc0 (by simp; omega)
          · intro h0; omega
      exact hheap c hc0 hcl
    · intro y hy
      obtain ⟨i, hi, rfl⟩ := List.mem_iff_getElem.1 hy
      have := heap_min hh i hi
      simp only [K, List.getElem?_eq_getElem hi] at this
      simpa using this

theorem heap_nil : IsHeap [] := by intro c _ h; simp at h

end ExpHeap
end LogCache
