import Verif.Model.Avl
import Verif.Spec.SortedMap
/-! # The AVL tree refines the sorted-list map -/
namespace LogCache
open Spec

namespace Tree
variable {α : Type}

/-- Search-tree invariant: in-order keys strictly increase. -/
def BST (t : Tree α) : Prop := Sorted t.toList

theorem sorted_append_cons {L R : List (Int × α)} {k : Int} {v : α} :
    Sorted (L ++ (k, v) :: R) ↔
      Sorted L ∧ Sorted R ∧ (∀ x ∈ L, x.1 < k) ∧ (∀ x ∈ R, k < x.1) := by
  unfold Sorted
  rw [List.pairwise_append, List.pairwise_cons]
  constructor
  · rintro ⟨h1, ⟨h2, h3⟩, h4⟩
    exact ⟨h1, h3, fun x hx => h4 x hx (k, v) (by simp), h2⟩
  · rintro ⟨h1, h2, h3, h4⟩
    refine ⟨h1, ⟨h4, h2⟩, ?_⟩
    intro a ha b hb
    rcases List.mem_cons.1 hb with rfl | hb
    · exact h3 a ha
    · exact lt_of_lt_of_lt' (h3 a ha) (h4 b hb)
where
  lt_of_lt_of_lt' {a b c : Int} (h : a < b) (h' : b < c) : a < c := by omega

theorem bst_node {l r : Tree α} {k : Int} {v : α} {b : Int} :
    BST (node l k v b r) ↔
      BST l ∧ BST r ∧ (∀ x ∈ l.toList, x.1 < k) ∧ (∀ x ∈ r.toList, k < x.1) := by
  unfold BST; simp only [toList]; exact sorted_append_cons

theorem bst_nil : BST (nil : Tree α) := List.Pairwise.nil

theorem size_eq_length (t : Tree α) : t.size = t.toList.length := by
  induction t with
  | nil => rfl
  | node l k v b r ihl ihr => simp [size, toList, ihl, ihr]; omega

/-! ## rotations keep the in-order contents -/

theorem toList_rotateL (t : Tree α) : (rotateL t).toList = t.toList := by
  unfold rotateL; split <;> simp [toList]

theorem toList_rotateR (t : Tree α) : (rotateR t).toList = t.toList := by
  unfold rotateR; split <;> simp [toList]

theorem toList_setBal (b : Int) (t : Tree α) : (setBal b t).toList = t.toList := by
  cases t <;> simp [setBal, toList]

theorem toList_singlerot (c : Bool) (t : Tree α) : (singlerot c t).toList = t.toList := by
  cases t with
  | nil => rfl
  | node l k v b r =>
    cases c <;> simp [singlerot, toList_setBal, toList_rotateL, toList_rotateR, toList]

theorem toList_doublerot (c : Bool) (t : Tree α) : (doublerot c t).toList = t.toList := by
  unfold doublerot
  split
  · split
    · simp [toList]
    · split <;> simp [toList]
  · split
    · simp [toList]
    · split <;> simp [toList]
  · rfl

theorem toList_putFix (c : Bool) (t : Tree α) : (putFix c t).1.toList = t.toList := by
  cases t with
  | nil => rfl
  | node l k v b r =>
    cases c <;> simp only [putFix] <;> repeat' split
    all_goals first
      | contradiction
      | simp [toList_singlerot, toList_doublerot, toList]

theorem toList_removeFix (c : Bool) (t : Tree α) : (removeFix c t).1.toList = t.toList := by
  cases t with
  | nil => rfl
  | node l k v b r =>
    cases c <;> simp only [removeFix] <;> repeat' split
    all_goals first
      | contradiction
      | simp [toList_singlerot, toList_doublerot, toList_setBal, toList_rotateL, toList_rotateR,
          toList]

/-! ## insertion -/

theorem insertKV_append_left {L R : List (Int × α)} {key k : Int} {val v : α} (h : key < k) :
    insertKV key val (L ++ (k, v) :: R) = insertKV key val L ++ (k, v) :: R := by
  induction L with
  | nil => simp [insertKV, h]
  | cons p L ih =>
    obtain ⟨k', v'⟩ := p
    simp only [List.cons_append, insertKV]
    split
    · simp
    · split
      · simp
      · simp [ih]

theorem insertKV_append_right {L R : List (Int × α)} {key : Int} {val : α}
    (h : ∀ x ∈ L, x.1 < key) :
    insertKV key val (L ++ R) = L ++ insertKV key val R := by
  induction L with
  | nil => rfl
  | cons p L ih =>
    obtain ⟨k', v'⟩ := p
    have h1 := h (k', v') (by simp)
    simp only at h1
    simp only [List.cons_append, insertKV]
    rw [if_neg (by omega), if_neg (by omega), ih (fun x hx => h x (by simp [hx]))]

theorem toList_putAux {key : Int} {val : α} {t : Tree α} (h : BST t) :
    (putAux key val t).1.toList = insertKV key val t.toList := by
  induction t with
  | nil => rfl
  | node l k v b r ihl ihr =>
    obtain ⟨hl, hr, hlk, hkr⟩ := bst_node.1 h
    simp only [putAux]
    split
    · rename_i hk; subst hk
      rw [toList, toList, insertKV_append_right hlk]
      simp [insertKV]
    · split
      · rename_i hne hlt
        rw [toList, insertKV_append_left hlt, ← ihl hl]
        split <;> rename_i heq
        · rw [toList_putFix, toList, heq]
        · rw [toList, heq]
      · rename_i hne hnlt
        have : ∀ x ∈ l.toList, x.1 < key := fun x hx => by have := hlk x hx; omega
        rw [toList, insertKV_append_right this]
        simp only [insertKV]
        rw [if_neg hnlt, if_neg hne, ← ihr hr]
        split <;> rename_i heq
        · rw [toList_putFix, toList, heq]
        · rw [toList, heq]

theorem toList_put {key : Int} {val : α} {t : Tree α} (h : BST t) :
    (put key val t).toList = insertKV key val t.toList := toList_putAux h

theorem mem_insertKV {key : Int} {val : α} {l : List (Int × α)} {x : Int × α}
    (h : x ∈ insertKV key val l) : x = (key, val) ∨ x ∈ l := by
  induction l with
  | nil => simp [insertKV] at h; exact Or.inl h
  | cons p l ih =>
    obtain ⟨k, v⟩ := p
    simp only [insertKV] at h
    split at h
    · simpa using h
    · split at h
      · rcases List.mem_cons.1 h with h | h
        · exact Or.inl h
        · exact Or.inr (by simp [h])
      · rcases List.mem_cons.1 h with h | h
        · exact Or.inr (by simp [h])
        · rcases ih h with h | h
          · exact Or.inl h
          · exact Or.inr (by simp [h])

theorem sorted_insertKV {key : Int} {val : α} {l : List (Int × α)} (h : Sorted l) :
    Sorted (insertKV key val l) := by
  induction l with
  | nil => simp [insertKV, Sorted]
  | cons p l ih =>
    obtain ⟨k, v⟩ := p
    unfold Sorted at *
    rw [List.pairwise_cons] at h
    obtain ⟨h1, h2⟩ := h
    simp only at h1
    simp only [insertKV]
    split
    · rename_i hlt
      refine List.pairwise_cons.2 ⟨?_, List.pairwise_cons.2 ⟨h1, h2⟩⟩
      intro x hx
      rcases List.mem_cons.1 hx with rfl | hx
      · exact hlt
      · have := h1 x hx; simp only at this ⊢; omega
    · split
      · rename_i heq; subst heq
        exact List.pairwise_cons.2 ⟨h1, h2⟩
      · refine List.pairwise_cons.2 ⟨?_, ih h2⟩
        intro x hx
        rcases mem_insertKV hx with rfl | hx
        · simp only; omega
        · exact h1 x hx

theorem bst_put {key : Int} {val : α} {t : Tree α} (h : BST t) : BST (put key val t) := by
  unfold BST; rw [toList_put h]; exact sorted_insertKV h

/-! ## removal -/

theorem removeMin_spec {t : Tree α} :
    match removeMin t with
    | none => t = nil
    | some (m, t', _) => t.toList = m :: t'.toList := by
  induction t with
  | nil => simp [removeMin]
  | node l k v b r ihl ihr =>
    simp only [removeMin]
    cases hm : removeMin l with
    | none =>
      rw [hm] at ihl; simp only at ihl; subst ihl
      simp [toList]
    | some p =>
      obtain ⟨m, l', f⟩ := p
      rw [hm] at ihl; simp only at ihl
      cases f with
      | true => simp [toList_removeFix, toList, ihl]
      | false => simp [toList, ihl]

theorem eraseK_eq_self {l : List (Int × α)} {key : Int} (h : ∀ x ∈ l, x.1 ≠ key) :
    eraseK key l = l := by
  unfold eraseK
  rw [List.filter_eq_self]
  intro x hx; simpa using h x hx

theorem eraseK_append (key : Int) (L R : List (Int × α)) :
    eraseK key (L ++ R) = eraseK key L ++ eraseK key R := by
  simp [eraseK]

theorem toList_removeAux {key : Int} {t : Tree α} (h : BST t) :
    (removeAux key t).1.toList = eraseK key t.toList := by
  induction t with
  | nil => rfl
  | node l k v b r ihl ihr =>
    obtain ⟨hl, hr, hlk, hkr⟩ := bst_node.1 h
    simp only [removeAux]
    rw [toList, eraseK_append]
    split
    · rename_i hk; subst hk
      have e1 : eraseK key l.toList = l.toList :=
        eraseK_eq_self fun x hx => by have := hlk x hx; omega
      have e2 : eraseK key ((key, v) :: r.toList) = r.toList := by
        have : eraseK key r.toList = r.toList :=
          eraseK_eq_self fun x hx => by have := hkr x hx; omega
        unfold eraseK at *
        rw [List.filter_cons]; simpa using this
      rw [e1, e2]
      have hs := removeMin_spec (t := r)
      cases hm : removeMin r with
      | none => rw [hm] at hs; simp only at hs; subst hs; simp [toList]
      | some p =>
        obtain ⟨m, r', f⟩ := p
        rw [hm] at hs; simp only at hs
        cases f with
        | true => simp [toList_removeFix, toList, hs]
        | false => simp [toList, hs]
    · split
      · rename_i hne hlt
        have e2 : eraseK key ((k, v) :: r.toList) = (k, v) :: r.toList := by
          apply eraseK_eq_self
          intro x hx
          rcases List.mem_cons.1 hx with rfl | hx
          · simp only; omega
          · have := hkr x hx; omega
        rw [e2, ← ihl hl]
        split <;> rename_i heq
        · rw [toList_removeFix, toList, heq]
        · rw [toList, heq]
      · rename_i hne hnlt
        have e1 : eraseK key l.toList = l.toList :=
          eraseK_eq_self fun x hx => by have := hlk x hx; omega
        have e2 : eraseK key ((k, v) :: r.toList) = (k, v) :: eraseK key r.toList := by
          unfold eraseK; rw [List.filter_cons]
          simp; omega
        rw [e1, e2, ← ihr hr]
        split <;> rename_i heq
        · rw [toList_removeFix, toList, heq]
        · rw [toList, heq]

theorem toList_remove {key : Int} {t : Tree α} (h : BST t) :
    (remove key t).toList = eraseK key t.toList := toList_removeAux h

theorem sorted_eraseK {key : Int} {l : List (Int × α)} (h : Sorted l) : Sorted (eraseK key l) :=
  List.Pairwise.sublist List.filter_sublist h

theorem bst_remove {key : Int} {t : Tree α} (h : BST t) : BST (remove key t) := by
  unfold BST; rw [toList_remove h]; exact sorted_eraseK h

/-! ## queries -/

theorem left_eq_head (t : Tree α) : t.left = t.toList.head? := by
  induction t with
  | nil => rfl
  | node l k v b r ihl ihr =>
    cases l with
    | nil => simp [left, toList]
    | node l' k' v' b' r' =>
      rw [left, ihl]
      simp [toList]

theorem lookupK_append {key : Int} {L R : List (Int × α)} :
    lookupK key (L ++ R) = (lookupK key L).or (lookupK key R) := by
  unfold lookupK
  rw [List.find?_append]
  cases List.find? (fun p => p.1 = key) L <;> simp

theorem lookupK_none {key : Int} {L : List (Int × α)} :
    lookupK key L = none ↔ ∀ x ∈ L, x.1 ≠ key := by
  simp [lookupK]

theorem get_eq_lookup {key : Int} {t : Tree α} (h : BST t) :
    t.get key = lookupK key t.toList := by
  induction t with
  | nil => rfl
  | node l k v b r ihl ihr =>
    obtain ⟨hl, hr, hlk, hkr⟩ := bst_node.1 h
    rw [get, toList, lookupK_append]
    split
    · rename_i hk; subst hk
      have : lookupK key l.toList = none :=
        lookupK_none.2 fun x hx => by have := hlk x hx; omega
      rw [this]; simp [lookupK]
    · split
      · rename_i hne hlt
        have : lookupK key ((k, v) :: r.toList) = none := by
          apply lookupK_none.2
          intro x hx
          rcases List.mem_cons.1 hx with rfl | hx
          · simp only; omega
          · have := hkr x hx; omega
        rw [this, ihl hl]; simp
      · rename_i hne hnlt
        have e1 : lookupK key l.toList = none :=
          lookupK_none.2 fun x hx => by have := hlk x hx; omega
        have e2 : lookupK key ((k, v) :: r.toList) = lookupK key r.toList := by
          have : k ≠ key := fun h => hne h.symm
          simp [lookupK, this]
        rw [e1, e2, ihr hr]; simp

theorem get_isSome_iff {key : Int} {t : Tree α} (h : BST t) :
    (t.get key).isSome ↔ key ∈ keys t.toList := by
  rw [get_eq_lookup h]
  constructor
  · intro hs
    apply Classical.byContradiction; intro hn
    have : lookupK key t.toList = none := by
      apply lookupK_none.2
      intro x hx he
      exact hn (by unfold keys; exact List.mem_map.2 ⟨x, hx, he⟩)
    simp [this] at hs
  · intro hm
    unfold keys at hm
    obtain ⟨x, hx, he⟩ := List.mem_map.1 hm
    cases hl : lookupK key t.toList with
    | none => exact absurd he (lookupK_none.1 hl x hx)
    | some v => rfl

end Tree
end LogCache
