import Verif.Spec.Depth
import Verif.Proof.Store
/-! # The trees stay balanced -/
namespace LogCache
open Spec Tree
variable {α : Type}

/-- A balanced tree that was `h` levels high, with the flag whether it grew. -/
def Grown (h : Int) (x : Tree α × Bool) : Prop :=
  Balanced x.1 ∧ (treeHeight x.1 : Int) = h + (if x.2 then 1 else 0) ∧
    (x.2 = true → bal x.1 ≠ 0 ∨ treeHeight x.1 = 1)

/-- A balanced tree that was `h` levels high, with the flag whether it shrank. -/
def Shrunk (h : Int) (x : Tree α × Bool) : Prop :=
  Balanced x.1 ∧ (treeHeight x.1 : Int) = h - (if x.2 then 1 else 0)

theorem grown_false {h : Int} {t : Tree α} : Grown h (t, false) ↔ Balanced t ∧ (treeHeight t : Int) = h := by
  simp [Grown]

theorem grown_true {h : Int} {t : Tree α} : Grown h (t, true) ↔ Balanced t ∧ (treeHeight t : Int) = h + 1 ∧
    (bal t ≠ 0 ∨ treeHeight t = 1) := by
  simp [Grown]

theorem shrunk_false {h : Int} {t : Tree α} : Shrunk h (t, false) ↔ Balanced t ∧ (treeHeight t : Int) = h := by
  simp [Shrunk]

theorem shrunk_true {h : Int} {t : Tree α} : Shrunk h (t, true) ↔ Balanced t ∧ (treeHeight t : Int) = h - 1 := by
  simp [Shrunk]

theorem putFix_right {l r : Tree α} {k : Int} {v : α} {b : Int} (hl : Balanced l) (hr : Balanced r)
    (hb : b = (treeHeight r : Int) - 1 - treeHeight l) (h1 : -1 ≤ b) (h2 : b ≤ 1)
    (hg : bal r ≠ 0 ∨ treeHeight r = 1) :
    Grown (1 + max (treeHeight l : Int) (treeHeight r - 1)) (putFix true (.node l k v b r)) := by
  unfold putFix
  simp only [if_true]
  split
  · rw [grown_true]
    simp only [Balanced, treeHeight, bal]; refine ⟨⟨hl, hr, ?_, ?_, ?_⟩, ?_, .inl (by decide)⟩ <;> omega
  · split
    · rw [grown_false]
      simp only [Balanced, treeHeight]
      refine ⟨⟨hl, hr, ?_, ?_, ?_⟩, ?_⟩ <;> omega
    · cases r with
      | nil => simp only [treeHeight] at hb; omega
      | node rl rk rv rb rr =>
        simp only [bal] at hg
        simp only [Balanced, treeHeight] at hr hb hg ⊢
        obtain ⟨hrl, hrr, hrb, hr1, hr2⟩ := hr
        by_cases hc : rb = 1
        · rw [if_pos (show bal (.node rl rk rv rb rr) = 1 from hc), grown_false]
          simp only [singlerot, rotateL, setBal, Balanced, treeHeight, if_true]
          refine ⟨⟨⟨hl, hrl, ?_, ?_, ?_⟩, hrr, ?_, ?_, ?_⟩, ?_⟩ <;> omega
        · rw [if_neg (show ¬ bal (.node rl rk rv rb rr) = 1 from hc), grown_false]
          cases rl with
          | nil => simp only [treeHeight] at hrb hb hg; omega
          | node pl pk pv pb pr =>
            simp only [Balanced, treeHeight] at hrl hrb hb hg
            obtain ⟨hpl, hpr, hpb, hp1, hp2⟩ := hrl
            simp only [doublerot]
            split
            · simp only [Balanced, treeHeight]
              refine ⟨⟨⟨hl, hpl, ?_, ?_, ?_⟩, ⟨hpr, hrr, ?_, ?_, ?_⟩, ?_, ?_, ?_⟩, ?_⟩ <;> omega
            · split
              · simp only [Balanced, treeHeight]
                refine ⟨⟨⟨hl, hpl, ?_, ?_, ?_⟩, ⟨hpr, hrr, ?_, ?_, ?_⟩, ?_, ?_, ?_⟩, ?_⟩ <;> omega
              · simp only [Balanced, treeHeight]
                refine ⟨⟨⟨hl, hpl, ?_, ?_, ?_⟩, ⟨hpr, hrr, ?_, ?_, ?_⟩, ?_, ?_, ?_⟩, ?_⟩ <;> omega

theorem putFix_left {l r : Tree α} {k : Int} {v : α} {b : Int} (hl : Balanced l) (hr : Balanced r)
    (hb : b = (treeHeight r : Int) - (treeHeight l - 1)) (h1 : -1 ≤ b) (h2 : b ≤ 1)
    (hg : bal l ≠ 0 ∨ treeHeight l = 1) :
    Grown (1 + max (treeHeight l - 1 : Int) (treeHeight r)) (putFix false (.node l k v b r)) := by
  unfold putFix
  simp only [Bool.false_eq_true, if_false]
  split
  · rw [grown_true]
    simp only [Balanced, treeHeight, bal]; refine ⟨⟨hl, hr, ?_, ?_, ?_⟩, ?_, .inl (by decide)⟩ <;> omega
  · split
    · rw [grown_false]
      simp only [Balanced, treeHeight]
      refine ⟨⟨hl, hr, ?_, ?_, ?_⟩, ?_⟩ <;> omega
    · cases l with
      | nil => simp only [treeHeight] at hb; omega
      | node ll lk lv lb lr =>
        simp only [bal] at hg
        simp only [Balanced, treeHeight] at hl hb hg ⊢
        obtain ⟨hll, hlr, hlb, hl1, hl2⟩ := hl
        by_cases hc : lb = -1
        · rw [if_pos (show bal (.node ll lk lv lb lr) = -1 from hc), grown_false]
          simp only [singlerot, rotateR, setBal, Balanced, treeHeight, Bool.false_eq_true, if_false]
          refine ⟨⟨hll, ⟨hlr, hr, ?_, ?_, ?_⟩, ?_, ?_, ?_⟩, ?_⟩ <;> omega
        · rw [if_neg (show ¬ bal (.node ll lk lv lb lr) = -1 from hc), grown_false]
          cases lr with
          | nil => simp only [treeHeight] at hlb hb hg; omega
          | node pl pk pv pb pr =>
            simp only [Balanced, treeHeight] at hlr hlb hb hg
            obtain ⟨hpl, hpr, hpb, hp1, hp2⟩ := hlr
            simp only [doublerot]
            split
            · simp only [Balanced, treeHeight]
              refine ⟨⟨⟨hll, hpl, ?_, ?_, ?_⟩, ⟨hpr, hr, ?_, ?_, ?_⟩, ?_, ?_, ?_⟩, ?_⟩ <;> omega
            · split
              · simp only [Balanced, treeHeight]
                refine ⟨⟨⟨hll, hpl, ?_, ?_, ?_⟩, ⟨hpr, hr, ?_, ?_, ?_⟩, ?_, ?_, ?_⟩, ?_⟩ <;> omega
              · simp only [Balanced, treeHeight]
                refine ⟨⟨⟨hll, hpl, ?_, ?_, ?_⟩, ⟨hpr, hr, ?_, ?_, ?_⟩, ?_, ?_, ?_⟩, ?_⟩ <;> omega

theorem putAux_grown (key : Int) (val : α) {t : Tree α} (h : Balanced t) :
    Grown (treeHeight t) (putAux key val t) := by
  induction t with
  | nil => rw [putAux, grown_true]; simp [Balanced, treeHeight]
  | node l k v b r ihl ihr =>
    obtain ⟨hl, hr, hb, h1, h2⟩ := h
    rw [putAux]
    split
    · rw [grown_false]; exact ⟨⟨hl, hr, hb, h1, h2⟩, rfl⟩
    · split
      · have := ihl hl
        rcases hx : putAux key val l with ⟨l', g⟩
        rw [hx] at this
        cases g with
        | true =>
          rw [grown_true] at this
          obtain ⟨hb', hh, hg⟩ := this
          have := putFix_left (k := k) (v := v) (b := b) hb' hr (by omega) h1 h2 hg
          rw [hh] at this
          simp only [treeHeight]
          rw [show ((1 + max (treeHeight l) (treeHeight r) : Nat) : Int) =
            1 + max ((treeHeight l : Int) + 1 - 1) (treeHeight r) by omega]
          exact this
        | false =>
          rw [grown_false] at this
          obtain ⟨hb', hh⟩ := this
          simp only [grown_false, Balanced, treeHeight]
          refine ⟨⟨hb', hr, ?_, ?_, ?_⟩, ?_⟩ <;> omega
      · have := ihr hr
        rcases hx : putAux key val r with ⟨r', g⟩
        rw [hx] at this
        cases g with
        | true =>
          rw [grown_true] at this
          obtain ⟨hb', hh, hg⟩ := this
          have := putFix_right (k := k) (v := v) (b := b) hl hb' (by omega) h1 h2 hg
          rw [hh] at this
          simp only [treeHeight]
          rw [show ((1 + max (treeHeight l) (treeHeight r) : Nat) : Int) =
            1 + max (treeHeight l : Int) ((treeHeight r : Int) + 1 - 1) by omega]
          exact this
        | false =>
          rw [grown_false] at this
          obtain ⟨hb', hh⟩ := this
          simp only [grown_false, Balanced, treeHeight]
          refine ⟨⟨hl, hb', ?_, ?_, ?_⟩, ?_⟩ <;> omega

theorem balanced_put (key : Int) (val : α) {t : Tree α} (h : Balanced t) : Balanced (Tree.put key val t) :=
  (putAux_grown key val h).1

theorem removeFix_right {l r : Tree α} {k : Int} {v : α} {b : Int} (hl : Balanced l) (hr : Balanced r)
    (hb : b = (treeHeight r : Int) - (treeHeight l + 1)) (h1 : -1 ≤ b) (h2 : b ≤ 1) :
    Shrunk (1 + max (treeHeight l + 1 : Int) (treeHeight r)) (removeFix true (.node l k v b r)) := by
  unfold removeFix
  simp only [if_true]
  split
  · rw [shrunk_false]
    simp only [Balanced, treeHeight]; refine ⟨⟨hl, hr, ?_, ?_, ?_⟩, ?_⟩ <;> omega
  · split
    · rw [shrunk_true]
      simp only [Balanced, treeHeight]
      refine ⟨⟨hl, hr, ?_, ?_, ?_⟩, ?_⟩ <;> omega
    · cases r with
      | nil => simp only [treeHeight] at hb; omega
      | node rl rk rv rb rr =>
        simp only [Balanced, treeHeight] at hr hb ⊢
        obtain ⟨hrl, hrr, hrb, hr1, hr2⟩ := hr
        by_cases h0 : rb = 0
        · rw [if_pos (show bal (.node rl rk rv rb rr) = 0 from h0), shrunk_false]
          simp only [rotateL, setBal, Balanced, treeHeight]
          refine ⟨⟨⟨hl, hrl, ?_, ?_, ?_⟩, hrr, ?_, ?_, ?_⟩, ?_⟩ <;> omega
        · rw [if_neg (show ¬ bal (.node rl rk rv rb rr) = 0 from h0)]
          by_cases hc : rb = 1
          · rw [if_pos (show bal (.node rl rk rv rb rr) = 1 from hc), shrunk_true]
            simp only [singlerot, rotateL, setBal, Balanced, treeHeight, if_true]
            refine ⟨⟨⟨hl, hrl, ?_, ?_, ?_⟩, hrr, ?_, ?_, ?_⟩, ?_⟩ <;> omega
          · rw [if_neg (show ¬ bal (.node rl rk rv rb rr) = 1 from hc), shrunk_true]
            cases rl with
            | nil => simp only [treeHeight] at hrb hb; omega
            | node pl pk pv pb pr =>
              simp only [Balanced, treeHeight] at hrl hrb hb
              obtain ⟨hpl, hpr, hpb, hp1, hp2⟩ := hrl
              simp only [doublerot]
              split
              · simp only [Balanced, treeHeight]
                refine ⟨⟨⟨hl, hpl, ?_, ?_, ?_⟩, ⟨hpr, hrr, ?_, ?_, ?_⟩, ?_, ?_, ?_⟩, ?_⟩ <;> omega
              · split
                · simp only [Balanced, treeHeight]
                  refine ⟨⟨⟨hl, hpl, ?_, ?_, ?_⟩, ⟨hpr, hrr, ?_, ?_, ?_⟩, ?_, ?_, ?_⟩, ?_⟩ <;> omega
                · simp only [Balanced, treeHeight]
                  refine ⟨⟨⟨hl, hpl, ?_, ?_, ?_⟩, ⟨hpr, hrr, ?_, ?_, ?_⟩, ?_, ?_, ?_⟩, ?_⟩ <;> omega

theorem removeFix_left {l r : Tree α} {k : Int} {v : α} {b : Int} (hl : Balanced l) (hr : Balanced r)
    (hb : b = (treeHeight r : Int) + 1 - treeHeight l) (h1 : -1 ≤ b) (h2 : b ≤ 1) :
    Shrunk (1 + max (treeHeight l : Int) (treeHeight r + 1)) (removeFix false (.node l k v b r)) := by
  unfold removeFix
  simp only [Bool.false_eq_true, if_false]
  split
  · rw [shrunk_false]
    simp only [Balanced, treeHeight]; refine ⟨⟨hl, hr, ?_, ?_, ?_⟩, ?_⟩ <;> omega
  · split
    · rw [shrunk_true]
      simp only [Balanced, treeHeight]
      refine ⟨⟨hl, hr, ?_, ?_, ?_⟩, ?_⟩ <;> omega
    · cases l with
      | nil => simp only [treeHeight] at hb; omega
      | node ll lk lv lb lr =>
        simp only [Balanced, treeHeight] at hl hb ⊢
        obtain ⟨hll, hlr, hlb, hl1, hl2⟩ := hl
        by_cases h0 : lb = 0
        · rw [if_pos (show bal (.node ll lk lv lb lr) = 0 from h0), shrunk_false]
          simp only [rotateR, setBal, Balanced, treeHeight]
          refine ⟨⟨hll, ⟨hlr, hr, ?_, ?_, ?_⟩, ?_, ?_, ?_⟩, ?_⟩ <;> omega
        · rw [if_neg (show ¬ bal (.node ll lk lv lb lr) = 0 from h0)]
          by_cases hc : lb = -1
          · rw [if_pos (show bal (.node ll lk lv lb lr) = -1 from hc), shrunk_true]
            simp only [singlerot, rotateR, setBal, Balanced, treeHeight, Bool.false_eq_true, if_false]
            refine ⟨⟨hll, ⟨hlr, hr, ?_, ?_, ?_⟩, ?_, ?_, ?_⟩, ?_⟩ <;> omega
          · rw [if_neg (show ¬ bal (.node ll lk lv lb lr) = -1 from hc), shrunk_true]
            cases lr with
            | nil => simp only [treeHeight] at hlb hb; omega
            | node pl pk pv pb pr =>
              simp only [Balanced, treeHeight] at hlr hlb hb
              obtain ⟨hpl, hpr, hpb, hp1, hp2⟩ := hlr
              simp only [doublerot]
              split
              · simp only [Balanced, treeHeight]
                refine ⟨⟨⟨hll, hpl, ?_, ?_, ?_⟩, ⟨hpr, hr, ?_, ?_, ?_⟩, ?_, ?_, ?_⟩, ?_⟩ <;> omega
              · split
                · simp only [Balanced, treeHeight]
                  refine ⟨⟨⟨hll, hpl, ?_, ?_, ?_⟩, ⟨hpr, hr, ?_, ?_, ?_⟩, ?_, ?_, ?_⟩, ?_⟩ <;> omega
                · simp only [Balanced, treeHeight]
                  refine ⟨⟨⟨hll, hpl, ?_, ?_, ?_⟩, ⟨hpr, hr, ?_, ?_, ?_⟩, ?_, ?_, ?_⟩, ?_⟩ <;> omega

theorem removeMin_shrunk {t : Tree α} (h : Balanced t) (m : Int × α) (x : Tree α × Bool)
    (hx : removeMin t = some (m, x)) : Shrunk (treeHeight t) x := by
  induction t generalizing m x with
  | nil => rw [removeMin] at hx; cases hx
  | node l k v b r ihl ihr =>
    obtain ⟨hl, hr, hb, h1, h2⟩ := h
    rw [removeMin] at hx
    cases hm : removeMin l with
    | none =>
      rw [hm] at hx
      cases hx
      cases l with
      | nil => rw [shrunk_true]; simp only [treeHeight] at hb ⊢; exact ⟨hr, by omega⟩
      | node a b c d e =>
        rw [removeMin] at hm
        split at hm <;> cases hm
    | some y =>
      obtain ⟨m', l', g⟩ := y
      rw [hm] at hx
      have := ihl hl m' _ hm
      cases g with
      | true =>
        dsimp only at hx
        cases hx
        rw [shrunk_true] at this
        have hf := removeFix_right (k := k) (v := v) (b := b) this.1 hr (by omega) h1 h2
        rw [this.2] at hf
        simp only [treeHeight]
        rw [show ((1 + max (treeHeight l) (treeHeight r) : Nat) : Int) =
            1 + max ((treeHeight l : Int) - 1 + 1) (treeHeight r) by omega]
        exact hf
      | false =>
        dsimp only at hx
        cases hx
        rw [shrunk_false] at this
        simp only [shrunk_false, Balanced, treeHeight]
        refine ⟨⟨this.1, hr, ?_, ?_, ?_⟩, ?_⟩ <;> omega

theorem removeMin_none {t : Tree α} (h : removeMin t = none) : t = .nil := by
  cases t with
  | nil => rfl
  | node l k v b r => rw [removeMin] at h; split at h <;> cases h

theorem removeAux_shrunk (key : Int) {t : Tree α} (h : Balanced t) : Shrunk (treeHeight t) (removeAux key t) := by
  induction t with
  | nil => rw [removeAux, shrunk_false]; exact ⟨trivial, rfl⟩
  | node l k v b r ihl ihr =>
    obtain ⟨hl, hr, hb, h1, h2⟩ := h
    rw [removeAux]
    split
    · cases hm : removeMin r with
      | none =>
        have := removeMin_none hm
        subst this
        simp only [shrunk_true, treeHeight] at hb ⊢
        exact ⟨hl, by omega⟩
      | some y =>
        obtain ⟨m, r', g⟩ := y
        have := removeMin_shrunk hr m _ hm
        cases g with
        | true =>
          rw [shrunk_true] at this
          have hf := removeFix_left (k := m.1) (v := m.2) (b := b) hl this.1 (by omega) h1 h2
          rw [this.2] at hf
          simp only [treeHeight]
          rw [show ((1 + max (treeHeight l) (treeHeight r) : Nat) : Int) =
              1 + max (treeHeight l : Int) ((treeHeight r : Int) - 1 + 1) by omega]
          exact hf
        | false =>
          rw [shrunk_false] at this
          simp only [shrunk_false, Balanced, treeHeight]
          refine ⟨⟨hl, this.1, ?_, ?_, ?_⟩, ?_⟩ <;> omega
    · split
      · have := ihl hl
        rcases hx : removeAux key l with ⟨l', g⟩
        rw [hx] at this
        cases g with
        | true =>
          rw [shrunk_true] at this
          have hf := removeFix_right (k := k) (v := v) (b := b) this.1 hr (by omega) h1 h2
          rw [this.2] at hf
          simp only [treeHeight]
          rw [show ((1 + max (treeHeight l) (treeHeight r) : Nat) : Int) =
              1 + max ((treeHeight l : Int) - 1 + 1) (treeHeight r) by omega]
          exact hf
        | false =>
          rw [shrunk_false] at this
          simp only [shrunk_false, Balanced, treeHeight]
          refine ⟨⟨this.1, hr, ?_, ?_, ?_⟩, ?_⟩ <;> omega
      · have := ihr hr
        rcases hx : removeAux key r with ⟨r', g⟩
        rw [hx] at this
        cases g with
        | true =>
          rw [shrunk_true] at this
          have hf := removeFix_left (k := k) (v := v) (b := b) hl this.1 (by omega) h1 h2
          rw [this.2] at hf
          simp only [treeHeight]
          rw [show ((1 + max (treeHeight l) (treeHeight r) : Nat) : Int) =
              1 + max (treeHeight l : Int) ((treeHeight r : Int) - 1 + 1) by omega]
          exact hf
        | false =>
          rw [shrunk_false] at this
          simp only [shrunk_false, Balanced, treeHeight]
          refine ⟨⟨hl, this.1, ?_, ?_, ?_⟩, ?_⟩ <;> omega

theorem balanced_remove (key : Int) {t : Tree α} (h : Balanced t) : Balanced (Tree.remove key t) :=
  (removeAux_shrunk key h).1

/-! ## No nil dereferences -/

theorem isNode_iff {t : Tree α} : t.isNode = true ↔ 1 ≤ treeHeight t := by
  cases t with
  | nil => simp [isNode, treeHeight]
  | node l k v b r => simp [isNode, treeHeight]

theorem height_children {t : Tree α} (h : Balanced t) (hn : t.isNode = true) :
    bal t = (treeHeight (child true t) : Int) - treeHeight (child false t) ∧ -1 ≤ bal t ∧ bal t ≤ 1 ∧
    treeHeight t = 1 + max (treeHeight (child false t)) (treeHeight (child true t)) := by
  cases t with
  | nil => cases hn
  | node l k v b r => exact ⟨h.2.2.1, h.2.2.2.1, h.2.2.2.2, rfl⟩

theorem putFixOk_right {l r : Tree α} {k : Int} {v : α} {b : Int} (hr : Balanced r)
    (hb : b = (treeHeight r : Int) - 1 - treeHeight l) (h1 : -1 ≤ b) (h2 : b ≤ 1)
    (hg : bal r ≠ 0 ∨ treeHeight r = 1) : putFixOk true (.node l k v b r) = true := by
  show (true && (b == 0 || b == -1 || (r.isNode && (bal r == 1 || (child false r).isNode)))) = true
  simp only [Bool.true_and, Bool.or_eq_true, Bool.and_eq_true, beq_iff_eq, isNode_iff]
  by_cases h : b = 0 ∨ b = -1
  · exact .inl h
  · have hn : r.isNode = true := by rw [isNode_iff]; omega
    have hh := height_children hr hn
    rw [isNode_iff] at hn
    refine .inr ⟨hn, ?_⟩
    by_cases hc : bal r = 1
    · exact .inl hc
    · exact .inr (by omega)

theorem putFixOk_left {l r : Tree α} {k : Int} {v : α} {b : Int} (hl : Balanced l)
    (hb : b = (treeHeight r : Int) - (treeHeight l - 1)) (h1 : -1 ≤ b) (h2 : b ≤ 1)
    (hg : bal l ≠ 0 ∨ treeHeight l = 1) : putFixOk false (.node l k v b r) = true := by
  show (true && (b == 0 || b == - -1 || (l.isNode && (bal l == (-1) || (child true l).isNode)))) = true
  simp only [Bool.true_and, Bool.or_eq_true, Bool.and_eq_true, beq_iff_eq, isNode_iff]
  by_cases h : b = 0 ∨ b = - -1
  · exact .inl h
  · have hn : l.isNode = true := by rw [isNode_iff]; omega
    have hh := height_children hl hn
    rw [isNode_iff] at hn
    refine .inr ⟨hn, ?_⟩
    by_cases hc : bal l = -1
    · exact .inl hc
    · exact .inr (by omega)

theorem removeFixOk_right {l r : Tree α} {k : Int} {v : α} {b : Int} (hr : Balanced r)
    (hb : b = (treeHeight r : Int) - (treeHeight l + 1)) (h1 : -1 ≤ b) (h2 : b ≤ 1) :
    removeFixOk true (.node l k v b r) = true := by
  show (true && (b == 0 || b == -1 || (r.isNode && (bal r == 0 || bal r == 1 || (child false r).isNode)))) = true
  simp only [Bool.true_and, Bool.or_eq_true, Bool.and_eq_true, beq_iff_eq, isNode_iff]
  by_cases h : b = 0 ∨ b = -1
  · exact .inl h
  · have hn : r.isNode = true := by rw [isNode_iff]; omega
    have hh := height_children hr hn
    rw [isNode_iff] at hn
    refine .inr ⟨hn, ?_⟩
    by_cases hc : bal r = 0 ∨ bal r = 1
    · exact .inl hc
    · exact .inr (by omega)

theorem removeFixOk_left {l r : Tree α} {k : Int} {v : α} {b : Int} (hl : Balanced l)
    (hb : b = (treeHeight r : Int) + 1 - treeHeight l) (h1 : -1 ≤ b) (h2 : b ≤ 1) :
    removeFixOk false (.node l k v b r) = true := by
  show (true && (b == 0 || b == - -1 || (l.isNode && (bal l == 0 || bal l == (-1) || (child true l).isNode)))) = true
  simp only [Bool.true_and, Bool.or_eq_true, Bool.and_eq_true, beq_iff_eq, isNode_iff]
  by_cases h : b = 0 ∨ b = - -1
  · exact .inl h
  · have hn : l.isNode = true := by rw [isNode_iff]; omega
    have hh := height_children hl hn
    rw [isNode_iff] at hn
    refine .inr ⟨hn, ?_⟩
    by_cases hc : bal l = 0 ∨ bal l = -1
    · exact .inl hc
    · exact .inr (by omega)

theorem putAuxP_eq (key : Int) (val : α) {t : Tree α} (h : Balanced t) :
    putAuxP key val t = some (putAux key val t) := by
  induction t with
  | nil => rfl
  | node l k v b r ihl ihr =>
    obtain ⟨hl, hr, hb, h1, h2⟩ := h
    rw [putAuxP, putAux]
    split
    · rfl
    · split
      · have hx := putAux_grown key val hl
        rw [ihl hl]
        rcases hp : putAux key val l with ⟨l', g⟩
        rw [hp] at hx
        cases g with
        | true =>
          rw [grown_true] at hx
          exact if_pos (putFixOk_left hx.1 (by omega) h1 h2 hx.2.2)
        | false => rfl
      · have hx := putAux_grown key val hr
        rw [ihr hr]
        rcases hp : putAux key val r with ⟨r', g⟩
        rw [hp] at hx
        cases g with
        | true =>
          rw [grown_true] at hx
          exact if_pos (putFixOk_right hx.1 (by omega) h1 h2 hx.2.2)
        | false => rfl

theorem removeMinP_eq {t : Tree α} (h : Balanced t) : removeMinP t = removeMin t := by
  induction t with
  | nil => rfl
  | node l k v b r ihl ihr =>
    obtain ⟨hl, hr, hb, h1, h2⟩ := h
    cases l with
    | nil => rfl
    | node ll lk lv lb lr =>
      rw [removeMinP, removeMin, ihl hl]
      cases hm : removeMin (node ll lk lv lb lr) with
      | none => exact absurd (removeMin_none hm) (by simp)
      | some y =>
        obtain ⟨m, l', g⟩ := y
        have hx := removeMin_shrunk hl m _ hm
        cases g with
        | true =>
          rw [shrunk_true] at hx
          exact if_pos (removeFixOk_right hr (by omega) h1 h2)
        | false => rfl

theorem removeAuxP_eq (key : Int) {t : Tree α} (h : Balanced t) :
    removeAuxP key t = some (removeAux key t) := by
  induction t with
  | nil => rfl
  | node l k v b r ihl ihr =>
    obtain ⟨hl, hr, hb, h1, h2⟩ := h
    rw [removeAuxP, removeAux]
    split
    · cases r with
      | nil => rfl
      | node rl rk rv rb rr =>
        rw [if_neg (by simp [isNode]), removeMinP_eq hr]
        cases hm : removeMin (node rl rk rv rb rr) with
        | none => exact absurd (removeMin_none hm) (by simp)
        | some y =>
          obtain ⟨m, r', g⟩ := y
          have hx := removeMin_shrunk hr m _ hm
          cases g with
          | true =>
            rw [shrunk_true] at hx
            exact if_pos (removeFixOk_left hl (by omega) h1 h2)
          | false => rfl
    · split
      · have hx := removeAux_shrunk key hl
        rw [ihl hl]
        rcases hp : removeAux key l with ⟨l', g⟩
        rw [hp] at hx
        cases g with
        | true =>
          rw [shrunk_true] at hx
          exact if_pos (removeFixOk_right hr (by omega) h1 h2)
        | false => rfl
      · have hx := removeAux_shrunk key hr
        rw [ihr hr]
        rcases hp : removeAux key r with ⟨r', g⟩
        rw [hp] at hx
        cases g with
        | true =>
          rw [shrunk_true] at hx
          exact if_pos (removeFixOk_left hl (by omega) h1 h2)
        | false => rfl

/-! ## Height and size -/

theorem size_of_height {t : Tree α} (h : Balanced t) : 2 ^ (treeHeight t / 2) ≤ t.size + 1 := by
  induction t with
  | nil => simp [treeHeight, size]
  | node l k v b r ihl ihr =>
    obtain ⟨hl, hr, hb, h1, h2⟩ := h
    have il := ihl hl
    have ir := ihr hr
    simp only [treeHeight, size]
    by_cases h0 : 1 + max (treeHeight l) (treeHeight r) < 2
    · have : (1 + max (treeHeight l) (treeHeight r)) / 2 = 0 := by omega
      rw [this]; omega
    · obtain ⟨n, hn⟩ : ∃ n, (1 + max (treeHeight l) (treeHeight r)) / 2 = n + 1 :=
        ⟨(1 + max (treeHeight l) (treeHeight r)) / 2 - 1, by omega⟩
      rw [hn, Nat.pow_succ]
      have e1 : 2 ^ n ≤ 2 ^ (treeHeight l / 2) := Nat.pow_le_pow_right (by decide) (by omega)
      have e2 : 2 ^ n ≤ 2 ^ (treeHeight r / 2) := Nat.pow_le_pow_right (by decide) (by omega)
      omega

theorem way_height {t : Tree α} {ks : List Int} (h : WayDown t ks) : ks.length ≤ treeHeight t := by
  induction h with
  | stop t => exact Nat.zero_le _
  | left _ ih => simp only [treeHeight, List.length_cons]; omega
  | right _ ih => simp only [treeHeight, List.length_cons]; omega

theorem way_log {t : Tree α} (hb : Balanced t) {ks : List Int} (h : WayDown t ks) :
    ks.length ≤ 2 * Nat.log2 (t.size + 1) + 1 := by
  have h1 := way_height h
  have h2 : treeHeight t / 2 ≤ Nat.log2 (t.size + 1) := (Nat.le_log2 (by omega)).2 (size_of_height hb)
  omega

/-! ## The trees of the store -/

/-- Every tree of the index is balanced. -/
def IdxBalanced (idx : List (Str × Storage)) : Prop := ∀ p ∈ idx, Balanced p.2.tree

theorem idxBalanced_store {idx : List (Str × Storage)} (h : IdxBalanced idx) (src : Str) {s : Storage}
    (hs : Balanced s.tree) : IdxBalanced (idxStore idx src s) := by
  induction idx with
  | nil =>
    intro p hp
    simp only [idxStore, List.mem_singleton] at hp
    rw [hp]; exact hs
  | cons q idx ih =>
    obtain ⟨k, s'⟩ := q
    rw [idxStore]
    have h' : IdxBalanced idx := fun p hp => h p (List.mem_cons_of_mem _ hp)
    split
    · intro p hp
      rcases List.mem_cons.1 hp with rfl | hp
      · exact hs
      · exact h' p hp
    · intro p hp
      rcases List.mem_cons.1 hp with rfl | hp
      · exact h _ (List.mem_cons_self ..)
      · exact ih h' p hp

theorem insertOrSwap_balanced {cfg : Config} {now : Int} {g g' : Globals} {s s' : Storage} {e : Envelope}
    (h : Balanced s.tree) (hi : insertOrSwap cfg now g s e = some (g', s')) : Balanced s'.tree := by
  unfold insertOrSwap at hi
  dsimp only at hi
  split at hi
  · cases hi
  · next g1 s1 hev =>
    have h1 : Balanced s1.tree := by
      split at hev
      · split at hev
        · cases hev
        · cases hev; exact balanced_remove _ h
      · cases hev; exact h
    split at hi
    · cases hi
    · cases hi
      exact balanced_put _ _ h1

theorem put_balanced {now : Int} {st st' : Store} {src : Str} {e : Envelope} (h : IdxBalanced st.index)
    (hp : put now st src e = some st') : IdxBalanced st'.index := by
  unfold put at hp
  dsimp only at hp
  split at hp
  · cases hp
  · next g s hi =>
    cases hp
    refine idxBalanced_store h src (insertOrSwap_balanced ?_ hi)
    unfold getOrInit
    cases hl : idxLoad st.index src with
    | none => trivial
    | some s => exact h _ (idxLoad_mem hl)

theorem removeOldest_balanced {g : Globals} {idx : List (Str × Storage)} {src : Str} (h : IdxBalanced idx) :
    IdxBalanced (removeOldestEnvelope g idx src).2.1 := by
  unfold removeOldestEnvelope
  cases hl : idxLoad idx src with
  | none => exact h
  | some s =>
    dsimp only
    cases s.tree.left with
    | none => exact h
    | some x =>
      dsimp only
      cases (s.tree.remove x.1).left with
      | none => exact fun p hp => h p (List.mem_filter.1 hp).1
      | some y => exact idxBalanced_store h src (balanced_remove _ (h _ (idxLoad_mem hl)))

theorem pruneLoop_balanced (n : Nat) {g : Globals} {idx : List (Str × Storage)} {hp : ExpHeap}
    {x : Globals × List (Str × Storage) × ExpHeap} (h : IdxBalanced idx) (hx : pruneLoop n g idx hp = some x) :
    IdxBalanced x.2.1 := by
  induction n generalizing g idx hp with
  | zero => cases hx; exact h
  | succ n ih =>
    rw [pruneLoop] at hx
    split at hx
    · cases hx
    · next y hp' _ =>
      have := removeOldest_balanced (g := g) (src := y.sourceId) h
      split at hx
      · next g' idx' he => rw [he] at this; exact ih this hx
      · next g' idx' ts he => rw [he] at this; exact ih this hx

theorem truncate_balanced {mc : Int → Int} {order : List (Str × Storage)} {now : Int} {st st' : Store}
    (h : IdxBalanced st.index) (ht : truncate mc order now st = some st') : IdxBalanced st'.index := by
  unfold truncate at ht
  dsimp only at ht
  split at ht
  · cases ht; exact h
  · split at ht
    · cases ht
    · split at ht
      · cases ht
      · next g idx hp he => cases ht; exact pruneLoop_balanced _ h he

theorem run_balanced {cfg : Config} {ops : List Op} {st : Store} (h : Run (newStore cfg) ops st) :
    IdxBalanced st.index := by
  induction h with
  | nil => intro p hp; cases hp
  | @snoc st' st'' ops op hrun hv he ih =>
    cases op with
    | put now src e => exact put_balanced ih he
    | truncate now mc order => exact truncate_balanced ih he
    | get src a =>
      cases he
      unfold getState
      split
      · exact ih
      · split <;> exact ih

end LogCache
