import Verif.Model.Routing

/-! # Lemmas about maps as association lists -/

namespace LogCache

theorem mapSet_lookup {β : Type} (m : List (Str × β)) (k : Str) (v : β) (a : Str) :
    (mapSet m k v).lookup a = if a = k then some v else m.lookup a := by
  induction m with
  | nil => 
    by_cases h : a = k
    · subst h; simp [mapSet]
    · have : (a == k) = false := by simpa using h
      simp [mapSet, List.lookup, h, this]
  | cons p rest ih =>
    obtain ⟨k', v'⟩ := p
    rw [mapSet]
    by_cases hk : k' = k
    · subst hk
      rw [if_pos rfl]
      by_cases h : a = k'
      · subst h; simp
      · have : (a == k') = false := by simpa using h
        simp [List.lookup, h, this]
    · rw [if_neg hk]
      by_cases h : a = k'
      · subst h
        rw [if_neg hk]; simp
      · have : (a == k') = false := by simpa using h
        simp only [List.lookup, this]
        exact ih

theorem mapSet_keys {β : Type} (m : List (Str × β)) (k : Str) (v : β) (h : (m.map Prod.fst).Nodup) :
    ((mapSet m k v).map Prod.fst).Nodup ∧
      ∀ a, a ∈ (mapSet m k v).map Prod.fst ↔ a = k ∨ a ∈ m.map Prod.fst := by
  induction m with
  | nil => simp [mapSet]
  | cons p rest ih =>
    obtain ⟨k', v'⟩ := p
    rw [List.map_cons, List.nodup_cons] at h
    rw [mapSet]
    by_cases hk : k' = k
    · subst hk
      rw [if_pos rfl]
      refine ⟨by rw [List.map_cons, List.nodup_cons]; exact h, ?_⟩
      intro a; simp
    · rw [if_neg hk]
      obtain ⟨i1, i2⟩ := ih h.2
      constructor
      · rw [List.map_cons, List.nodup_cons]
        refine ⟨?_, i1⟩
        rw [i2]
        rintro (h1 | h1)
        · exact hk h1
        · exact h.1 h1
      · intro a
        rw [List.map_cons, List.mem_cons, i2]
        simp only [List.map_cons, List.mem_cons]
        constructor <;> (rintro (h1 | h1 | h1) <;> simp [h1])

theorem lookup_filter_key {β : Type} (m : List (Str × β)) (f : Str → Bool) (a : Str) :
    (m.filter fun p => f p.1).lookup a = if f a then m.lookup a else none := by
  induction m with
  | nil => simp
  | cons p rest ih =>
    obtain ⟨k, v⟩ := p
    by_cases h : a = k
    · subst h
      cases hf : f a
      · rw [List.filter_cons_of_neg (by simp [hf]), ih, hf]; rfl
      · rw [List.filter_cons_of_pos (by simp [hf])]; simp
    · have hb : (a == k) = false := by simpa using h
      cases hf : f k
      · rw [List.filter_cons_of_neg (by simp [hf]), ih]; simp [List.lookup, hb]
      · rw [List.filter_cons_of_pos (by simp [hf])]; simp [List.lookup, hb, ih]

theorem lookup_none_of_not_mem {β : Type} (m : List (Str × β)) (a : Str) (h : a ∉ m.map Prod.fst) :
    m.lookup a = none := by
  induction m with
  | nil => rfl
  | cons p rest ih =>
    obtain ⟨k, v⟩ := p
    rw [List.map_cons, List.mem_cons, not_or] at h
    have hb : (a == k) = false := by simpa using h.1
    simp only [List.lookup, hb]
    exact ih h.2

theorem lookup_filter_val {β : Type} (m : List (Str × β)) (hm : (m.map Prod.fst).Nodup)
    (f : β → Bool) (a : Str) :
    (m.filter fun p => f p.2).lookup a = (m.lookup a).filter f := by
  induction m with
  | nil => simp
  | cons p rest ih =>
    obtain ⟨k, v⟩ := p
    rw [List.map_cons, List.nodup_cons] at hm
    by_cases h : a = k
    · subst h
      cases hf : f v
      · rw [List.filter_cons_of_neg (by simp [hf]), ih hm.2, lookup_none_of_not_mem rest a hm.1]
        simp [Option.filter, hf]
      · rw [List.filter_cons_of_pos (by simp [hf])]; simp [Option.filter, hf]
    · have hb : (a == k) = false := by simpa using h
      cases hf : f v
      · rw [List.filter_cons_of_neg (by simp [hf]), ih hm.2]; simp [List.lookup, hb]
      · rw [List.filter_cons_of_pos (by simp [hf])]; simp [List.lookup, hb, ih hm.2]

theorem filter_keys_nodup {β : Type} (m : List (Str × β)) (hm : (m.map Prod.fst).Nodup)
    (f : Str × β → Bool) : ((m.filter f).map Prod.fst).Nodup :=
  List.Sublist.nodup ((List.filter_sublist).map Prod.fst) hm

end LogCache
