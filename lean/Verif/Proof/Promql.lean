import Verif.Spec.Promql

/-! # Lemmas about splitting, joining, extraction and replacement -/

namespace LogCache

open Spec

theorem splitOn_ne_nil (c : Char) (s : Str) : splitOn c s ≠ [] := by
  induction s with
  | nil => simp [splitOn]
  | cons a s ih =>
    rw [splitOn]
    split
    · simp
    · split <;> simp

theorem splitOn_free {c : Char} {s : Str} (h : c ∉ s) : splitOn c s = [s] := by
  induction s with
  | nil => rfl
  | cons a s ih =>
    rw [splitOn, if_neg (by intro e; exact h (e ▸ List.mem_cons_self ..)),
      ih (fun hm => h (List.mem_cons_of_mem _ hm))]

/-- Splitting after a separator. -/
theorem splitOn_append {c : Char} (a b : Str) :
    splitOn c (a ++ c :: b) = splitOn c a ++ splitOn c b := by
  induction a with
  | nil => simp [splitOn]
  | cons x a ih =>
    rw [List.cons_append, splitOn, splitOn]
    by_cases hx : x = c
    · simp [hx, ih]
    · rw [if_neg hx, if_neg hx, ih]
      cases hs : splitOn c a with
      | nil => exact absurd hs (splitOn_ne_nil _ _)
      | cons w ws => rfl

theorem mem_splitOn_free {c : Char} {s w : Str} (h : w ∈ splitOn c s) : c ∉ w := by
  induction s generalizing w with
  | nil => simp [splitOn] at h; simp [h]
  | cons a s ih =>
    rw [splitOn] at h
    by_cases ha : a = c
    · rw [if_pos ha] at h
      rcases List.mem_cons.1 h with rfl | h
      · simp
      · exact ih h
    · rw [if_neg ha] at h
      cases hs : splitOn c s with
      | nil => exact absurd hs (splitOn_ne_nil _ _)
      | cons v vs =>
        rw [hs] at h ih
        rcases List.mem_cons.1 h with rfl | h
        · intro hm
          rcases List.mem_cons.1 hm with e | hm
          · exact ha e.symm
          · exact ih (List.mem_cons_self ..) hm
        · exact ih (List.mem_cons_of_mem _ h)

theorem joinPipe_cons (w : Str) {ws : List Str} (h : ws ≠ []) :
    joinPipe (w :: ws) = w ++ '|' :: joinPipe ws := by
  cases ws with
  | nil => exact absurd rfl h
  | cons w' ws => rfl

theorem joinPipe_split (s : Str) : joinPipe (splitPipe s) = s := by
  unfold splitPipe
  induction s with
  | nil => rfl
  | cons a s ih =>
    rw [splitOn]
    by_cases ha : a = '|'
    · rw [if_pos ha, joinPipe_cons _ (splitOn_ne_nil _ _), ih, ha]; rfl
    · rw [if_neg ha]
      cases hs : splitOn '|' s with
      | nil => exact absurd hs (splitOn_ne_nil _ _)
      | cons w ws =>
        rw [hs] at ih
        cases ws with
        | nil => simp only [joinPipe] at ih ⊢; rw [ih]
        | cons v vs =>
          rw [joinPipe_cons _ (by simp)] at ih
          show joinPipe ((a :: w) :: v :: vs) = _
          rw [joinPipe_cons _ (by simp), List.cons_append, ih]

theorem joinPipe_around (l r : List Str) (w : Str) :
    ∃ pre post, joinPipe (l ++ w :: r) = pre ++ w ++ post ∧
      (pre = [] ∨ ∃ p, pre = p ++ ['|']) ∧ (post = [] ∨ ∃ q, post = '|' :: q) := by
  induction l with
  | nil =>
    cases r with
    | nil => exact ⟨[], [], by simp [joinPipe], .inl rfl, .inl rfl⟩
    | cons v vs => exact ⟨[], '|' :: joinPipe (v :: vs), by simp [joinPipe], .inl rfl, .inr ⟨_, rfl⟩⟩
  | cons x l ih =>
    obtain ⟨pre, post, h, hpre, hpost⟩ := ih
    rw [List.cons_append, joinPipe_cons _ (by simp), h]
    refine ⟨x ++ '|' :: pre, post, by simp, .inr ?_, hpost⟩
    rcases hpre with rfl | ⟨p, rfl⟩
    · exact ⟨x, by simp⟩
    · exact ⟨x ++ '|' :: p, by simp⟩

theorem splitPipe_join {ws : List Str} (hne : ws ≠ []) (h : ∀ w ∈ ws, '|' ∉ w) :
    splitPipe (joinPipe ws) = ws := by
  unfold splitPipe
  induction ws with
  | nil => exact absurd rfl hne
  | cons w ws ih =>
    cases ws with
    | nil => exact splitOn_free (h w (List.mem_cons_self ..))
    | cons v vs =>
      rw [joinPipe_cons _ (by simp), splitOn_append, splitOn_free (h w (List.mem_cons_self ..)),
        ih (by simp) (fun x hx => h x (List.mem_cons_of_mem _ hx))]
      rfl

theorem mem_splitPipe {w v : Str} : w ∈ splitPipe v ↔ IsAlternative w v := by
  constructor
  · intro h
    refine ⟨mem_splitOn_free h, ?_⟩
    obtain ⟨l, r, hs⟩ := List.append_of_mem h
    have := joinPipe_around l r w
    rwa [← hs, joinPipe_split] at this
  · rintro ⟨hf, pre, post, rfl, hpre, hpost⟩
    have hw : splitOn '|' w = [w] := splitOn_free hf
    unfold splitPipe
    rcases hpre with rfl | ⟨p, rfl⟩ <;> rcases hpost with rfl | ⟨q, rfl⟩
    · simp [hw]
    · rw [List.nil_append, splitOn_append, hw]; simp
    · rw [List.append_nil, List.append_assoc, List.singleton_append, splitOn_append, hw]; simp
    · rw [List.append_assoc, List.append_assoc, List.singleton_append, splitOn_append,
        splitOn_append, hw]; simp

/-! ## Source ids of a query -/

theorem mem_setInsert {ids : List Str} {x y : Str} : y ∈ setInsert ids x ↔ y ∈ ids ∨ y = x := by
  unfold setInsert
  split
  · rename_i h
    constructor
    · exact .inl
    · rintro (h' | rfl) <;> assumption
  · simp

theorem setInsert_nodup {ids : List Str} (h : ids.Nodup) (x : Str) : (setInsert ids x).Nodup := by
  unfold setInsert
  split
  · exact h
  · rename_i hx
    rw [List.nodup_append]
    exact ⟨h, by simp, by intro a ha b hb; simp at hb; subst hb; exact fun e => hx (e ▸ ha)⟩

theorem mem_foldl_setInsert {xs ids : List Str} {y : Str} :
    y ∈ xs.foldl setInsert ids ↔ y ∈ ids ∨ y ∈ xs := by
  induction xs generalizing ids with
  | nil => simp
  | cons x xs ih => rw [List.foldl_cons, ih, mem_setInsert, List.mem_cons, or_assoc]

theorem mem_addSourceIds {ids : List Str} {m : Matcher} {y : Str} :
    y ∈ addSourceIds ids m ↔ y ∈ ids ∨
      (m.type = .equal ∧ m.value = y ∨ m.type = .regexp ∧ IsAlternative y m.value) := by
  unfold addSourceIds
  cases h : m.type with
  | equal => simp [mem_setInsert, eq_comm]
  | notEqual => simp
  | regexp => simp [mem_foldl_setInsert, mem_splitPipe]
  | notRegexp => simp

theorem mem_addFromMatchers {ids : List Str} {ms : List Matcher} {y : Str} :
    y ∈ addFromMatchers ids ms ↔ y ∈ ids ∨ NamesSource ms y := by
  unfold addFromMatchers
  induction ms generalizing ids with
  | nil => simp [NamesSource]
  | cons m ms ih =>
    rw [List.foldl_cons, ih]
    unfold NamesSource
    simp only [List.mem_cons, exists_eq_or_imp]
    by_cases h : m.name = sourceIdLabel
    · rw [if_pos h, mem_addSourceIds]
      have : m.name = "source_id".toList := h
      simp only [this, true_and, or_assoc]
    · rw [if_neg h]
      have : ¬ m.name = "source_id".toList := h
      simp only [this, false_and, false_or]

theorem queryNames_node {n : Str} {args : List PExpr} {y : Str} :
    QueryNames (.node n args) y ↔ ∃ e ∈ args, QueryNames e y := by
  constructor
  · rintro ⟨ms, h, hn⟩
    cases h with
    | node he h => exact ⟨_, he, ms, h, hn⟩
  · rintro ⟨e, he, ms, h, hn⟩
    exact ⟨ms, .node he h, hn⟩

mutual
theorem mem_extractWalk {ids : List Str} {y : Str} : ∀ (e : PExpr),
    y ∈ extractWalk ids e ↔ y ∈ ids ∨ QueryNames e y
  | .vector ms => by
    rw [extractWalk, mem_addFromMatchers]
    constructor
    · rintro (h | h)
      · exact .inl h
      · exact .inr ⟨ms, .vector, h⟩
    · rintro (h | ⟨_, ⟨⟩, h⟩)
      · exact .inl h
      · exact .inr h
  | .matrix ms => by
    rw [extractWalk, mem_addFromMatchers]
    constructor
    · rintro (h | h)
      · exact .inl h
      · exact .inr ⟨ms, .matrix, h⟩
    · rintro (h | ⟨_, ⟨⟩, h⟩)
      · exact .inl h
      · exact .inr h
  | .literal t => by
    rw [extractWalk]
    constructor
    · exact .inl
    · rintro (h | ⟨_, ⟨⟩, h⟩)
      exact h
  | .node n args => by
    rw [extractWalk, queryNames_node]
    exact mem_extractWalkList args
theorem mem_extractWalkList {ids : List Str} {y : Str} : ∀ (es : List PExpr),
    y ∈ extractWalkList ids es ↔ y ∈ ids ∨ ∃ e ∈ es, QueryNames e y
  | [] => by simp [extractWalkList]
  | e :: es => by
    rw [extractWalkList, mem_extractWalkList es, mem_extractWalk e]
    simp only [List.mem_cons, exists_eq_or_imp, or_assoc]
end

theorem addSourceIds_nodup {ids : List Str} (h : ids.Nodup) (m : Matcher) : (addSourceIds ids m).Nodup := by
  unfold addSourceIds
  cases m.type with
  | equal => exact setInsert_nodup h _
  | notEqual => exact h
  | notRegexp => exact h
  | regexp =>
    simp only
    generalize splitPipe m.value = ws
    induction ws generalizing ids with
    | nil => exact h
    | cons w ws ih => exact ih (setInsert_nodup h w)

theorem addFromMatchers_nodup {ids : List Str} (h : ids.Nodup) (ms : List Matcher) :
    (addFromMatchers ids ms).Nodup := by
  unfold addFromMatchers
  induction ms generalizing ids with
  | nil => exact h
  | cons m ms ih =>
    rw [List.foldl_cons]
    apply ih
    split
    · exact addSourceIds_nodup h m
    · exact h

mutual
theorem extractWalk_nodup {ids : List Str} (h : ids.Nodup) : ∀ e : PExpr, (extractWalk ids e).Nodup
  | .vector ms => by rw [extractWalk]; exact addFromMatchers_nodup h ms
  | .matrix ms => by rw [extractWalk]; exact addFromMatchers_nodup h ms
  | .literal t => by rw [extractWalk]; exact h
  | .node n args => by rw [extractWalk]; exact extractWalkList_nodup h args
theorem extractWalkList_nodup {ids : List Str} (h : ids.Nodup) : ∀ es : List PExpr,
    (extractWalkList ids es).Nodup
  | [] => by rw [extractWalkList]; exact h
  | e :: es => by rw [extractWalkList]; exact extractWalkList_nodup (extractWalk_nodup h e) es
end

theorem extract_nodup (e : PExpr) : (extractSourceIds e).Nodup := extractWalk_nodup List.nodup_nil e

theorem selectArgs_fold (ms : List Matcher) (a : SelectArgs) (y : Str) :
    y ∈ (ms.foldl selectArg a).ids ↔ y ∈ a.ids ∨ NamesSource ms y := by
  induction ms generalizing a with
  | nil => simp [NamesSource]
  | cons m ms ih =>
    rw [List.foldl_cons, ih]
    unfold NamesSource
    simp only [List.mem_cons, exists_eq_or_imp]
    unfold selectArg
    by_cases h1 : m.name = nameLabel
    · rw [if_pos h1]
      have : ¬ m.name = "source_id".toList := by rw [h1]; decide
      simp only [this, false_and, false_or]
    · rw [if_neg h1]
      by_cases h : m.name = sourceIdLabel
      · rw [if_pos h]
        have : m.name = "source_id".toList := h
        simp only [mem_addSourceIds, this, true_and, or_assoc]
      · rw [if_neg h]
        have : ¬ m.name = "source_id".toList := h
        simp only [this, false_and, false_or]

theorem mem_selectIds (ms : List Matcher) (y : Str) :
    y ∈ (selectArgs ms).ids ↔ NamesSource ms y := by
  rw [selectArgs, selectArgs_fold]; simp

theorem selectArgs_nodup (ms : List Matcher) : (selectArgs ms).ids.Nodup := by
  have : ∀ (ms : List Matcher) (a : SelectArgs), a.ids.Nodup → (ms.foldl selectArg a).ids.Nodup := by
    intro ms
    induction ms with
    | nil => intro a h; exact h
    | cons m ms ih =>
      intro a h
      apply ih
      unfold selectArg
      split
      · exact h
      · split
        · exact addSourceIds_nodup h m
        · exact h
  exact this ms {} List.nodup_nil

/-- The ids a selector names, each once, are those the code collects. -/
theorem validOrder_perm {order : List Matcher → List Str} (h : ValidOrder order) (ms : List Matcher) :
    (order ms).Perm (selectArgs ms).ids :=
  (List.perm_ext_iff_of_nodup (h ms).1 (selectArgs_nodup ms)).2 fun y => ((h ms).2 y).trans (mem_selectIds ms y).symm

theorem idsOrder_valid : ValidOrder fun ms => (selectArgs ms).ids :=
  fun ms => ⟨selectArgs_nodup ms, mem_selectIds ms⟩

/-! ## Selectors of a tree -/

mutual
theorem mem_selectorsOf {ms : List Matcher} : ∀ e : PExpr, ms ∈ selectorsOf e ↔ HasSelector e ms
  | .vector ms' => by
    simp only [selectorsOf, List.mem_singleton]
    constructor
    · rintro rfl; exact .vector
    · rintro ⟨⟩; rfl
  | .matrix ms' => by
    simp only [selectorsOf, List.mem_singleton]
    constructor
    · rintro rfl; exact .matrix
    · rintro ⟨⟩; rfl
  | .literal _ => by
    simp only [selectorsOf, List.not_mem_nil, false_iff]
    rintro ⟨⟩
  | .node n args => by
    rw [selectorsOf, mem_selectorsOfList args]
    constructor
    · rintro ⟨e, he, h⟩; exact .node he h
    · rintro ⟨⟩; rename_i e he h; exact ⟨e, he, h⟩
theorem mem_selectorsOfList {ms : List Matcher} : ∀ es : List PExpr,
    ms ∈ selectorsOf.ofList es ↔ ∃ e ∈ es, HasSelector e ms
  | [] => by simp [selectorsOf.ofList]
  | e :: es => by
    rw [selectorsOf.ofList, List.mem_append, mem_selectorsOf e, mem_selectorsOfList es]
    simp only [List.mem_cons, exists_eq_or_imp]
end

mutual
theorem selectorsOf_replace (ex : Expansions) : ∀ e : PExpr,
    selectorsOf (replaceSets ex e) = (selectorsOf e).map (·.map (replaceMatcher ex))
  | .vector _ => rfl
  | .matrix _ => rfl
  | .literal _ => rfl
  | .node n args => by rw [replaceSets, selectorsOf, selectorsOf, selectorsOf_replaceList ex args]
theorem selectorsOf_replaceList (ex : Expansions) : ∀ es : List PExpr,
    selectorsOf.ofList (replaceSetsList ex es) = (selectorsOf.ofList es).map (·.map (replaceMatcher ex))
  | [] => rfl
  | e :: es => by
    rw [replaceSetsList, selectorsOf.ofList, selectorsOf.ofList, selectorsOf_replace ex e,
      selectorsOf_replaceList ex es, List.map_append]
end

theorem queryNames_iff (e : PExpr) (y : Str) :
    QueryNames e y ↔ ∃ ms ∈ selectorsOf e, NamesSource ms y := by
  unfold QueryNames
  constructor
  · rintro ⟨ms, h, hn⟩; exact ⟨ms, (mem_selectorsOf e).2 h, hn⟩
  · rintro ⟨ms, h, hn⟩; exact ⟨ms, (mem_selectorsOf e).1 h, hn⟩

/-! ## Replacement -/

/-- The ids a matcher names. -/
theorem namesSource_single (m : Matcher) (y : Str) :
    NamesSource [m] y ↔ m.name = "source_id".toList ∧
      (m.type = .equal ∧ m.value = y ∨ m.type = .regexp ∧ IsAlternative y m.value) := by
  simp [NamesSource]

theorem namesSource_iff (ms : List Matcher) (y : Str) :
    NamesSource ms y ↔ ∃ m ∈ ms, NamesSource [m] y := by
  simp only [namesSource_single]; rfl

theorem setExpansions_names (m : Matcher) (hm : m.name = sourceIdLabel) (xs : List Str) (hne : xs ≠ [])
    (hf : ∀ x ∈ xs, '|' ∉ x) (y : Str) : NamesSource [setExpansions m xs] y ↔ y ∈ xs := by
  rw [namesSource_single]
  have h1 : (setExpansions m xs).name = "source_id".toList := hm
  rw [h1]
  simp only [true_and]
  unfold setExpansions
  cases xs with
  | nil => exact absurd rfl hne
  | cons x xs =>
    cases xs with
    | nil => simp [joinPipe, eq_comm]
    | cons z zs =>
      have := splitPipe_join hne hf
      simp only [List.length_cons]
      rw [if_pos (by omega)]
      simp only [reduceCtorEq, false_and, true_and, false_or]
      rw [← mem_splitPipe, this]

/-- What a replaced matcher names: the expansions of what it named. -/
theorem replaceMatcher_names (ex : Expansions) (m : Matcher)
    (hex : ∀ id, NamesSource [m] id → ∃ xs, ex id = some xs ∧ xs ≠ [] ∧ ∀ x ∈ xs, '|' ∉ x) (y : Str) :
    NamesSource [replaceMatcher ex m] y ↔ ∃ id xs, NamesSource [m] id ∧ ex id = some xs ∧ y ∈ xs := by
  unfold replaceMatcher
  by_cases hn : m.name = sourceIdLabel
  · rw [if_pos hn]
    have hn' : m.name = "source_id".toList := hn
    simp only [namesSource_single, hn', true_and] at hex
    cases ht : m.type with
    | equal =>
      simp only
      obtain ⟨xs, h1, h2, h3⟩ := hex m.value (.inl ⟨ht, rfl⟩)
      rw [replaceEqual, h1]
      simp only
      rw [setExpansions_names m hn xs h2 h3]
      simp only [namesSource_single, hn', true_and, ht, reduceCtorEq, false_and, or_false]
      constructor
      · intro h; exact ⟨_, xs, rfl, h1, h⟩
      · rintro ⟨id, xs', rfl, h4, h5⟩
        rw [h1] at h4; cases h4; exact h5
    | regexp =>
      simp only
      have hall : ∀ id ∈ splitPipe m.value, ∃ xs, ex id = some xs ∧ xs ≠ [] ∧ ∀ x ∈ xs, '|' ∉ x :=
        fun id hid => hex id (.inr ⟨ht, mem_splitPipe.1 hid⟩)
      have hne : ((splitPipe m.value).flatMap fun id => (ex id).getD []) ≠ [] := by
        obtain ⟨w, ws, hw⟩ := List.exists_cons_of_ne_nil (splitOn_ne_nil '|' m.value)
        have hmem : w ∈ splitPipe m.value := by show w ∈ splitOn '|' m.value; rw [hw]; simp
        obtain ⟨xs, h1, h2, h3⟩ := hall w hmem
        obtain ⟨x, xs', rfl⟩ := List.exists_cons_of_ne_nil h2
        intro h0
        have : x ∈ ((splitPipe m.value).flatMap fun id => (ex id).getD []) :=
          List.mem_flatMap.2 ⟨w, hmem, by simp [h1]⟩
        rw [h0] at this
        cases this
      rw [replaceRegexp, setExpansions_names m hn _ hne]
      · simp only [namesSource_single, hn', true_and, ht, reduceCtorEq, false_and, false_or]
        rw [List.mem_flatMap]
        constructor
        · rintro ⟨id, hid, hy⟩
          obtain ⟨xs, h1, h2, h3⟩ := hall id hid
          rw [h1] at hy
          exact ⟨id, xs, mem_splitPipe.1 hid, h1, hy⟩
        · rintro ⟨id, xs, hid, h1, hy⟩
          exact ⟨id, mem_splitPipe.2 hid, by rw [h1]; exact hy⟩
      · intro x hx
        obtain ⟨id, hid, hx⟩ := List.mem_flatMap.1 hx
        obtain ⟨xs, h1, h2, h3⟩ := hall id hid
        rw [h1] at hx
        exact h3 x hx
    | notEqual =>
      simp only [namesSource_single, ht, reduceCtorEq, false_and, or_false, and_false, exists_false]
    | notRegexp =>
      simp only [namesSource_single, ht, reduceCtorEq, false_and, or_false, and_false, exists_false]
  · rw [if_neg hn]
    have hn' : ¬ m.name = "source_id".toList := hn
    simp only [namesSource_single, hn', false_and, exists_false]

theorem replaceSets_names (ex : Expansions) (e : PExpr)
    (hex : ∀ id, QueryNames e id → ∃ xs, ex id = some xs ∧ xs ≠ [] ∧ ∀ x ∈ xs, '|' ∉ x) (y : Str) :
    QueryNames (replaceSets ex e) y ↔ ∃ id xs, QueryNames e id ∧ ex id = some xs ∧ y ∈ xs := by
  rw [queryNames_iff, selectorsOf_replace]
  constructor
  · rintro ⟨ms, hms, hn⟩
    obtain ⟨ms0, h0, rfl⟩ := List.mem_map.1 hms
    rw [namesSource_iff] at hn
    obtain ⟨m', hm', hn⟩ := hn
    obtain ⟨m, hm, rfl⟩ := List.mem_map.1 hm'
    have hq : ∀ id, NamesSource [m] id → QueryNames e id := fun id h =>
      (queryNames_iff e id).2 ⟨ms0, h0, (namesSource_iff ms0 id).2 ⟨m, hm, h⟩⟩
    obtain ⟨id, xs, h1, h2, h3⟩ := (replaceMatcher_names ex m (fun id h => hex id (hq id h)) y).1 hn
    exact ⟨id, xs, hq id h1, h2, h3⟩
  · rintro ⟨id, xs, hq, h1, h2⟩
    obtain ⟨ms0, h0, hn⟩ := (queryNames_iff e id).1 hq
    obtain ⟨m, hm, hn⟩ := (namesSource_iff ms0 id).1 hn
    have hq : ∀ id, NamesSource [m] id → QueryNames e id := fun id h =>
      (queryNames_iff e id).2 ⟨ms0, h0, (namesSource_iff ms0 id).2 ⟨m, hm, h⟩⟩
    refine ⟨_, List.mem_map.2 ⟨ms0, h0, rfl⟩, (namesSource_iff _ y).2 ⟨_, List.mem_map.2 ⟨m, hm, rfl⟩, ?_⟩⟩
    exact (replaceMatcher_names ex m (fun id h => hex id (hq id h)) y).2 ⟨id, xs, hn, h1, h2⟩

theorem replaceMatchers_names (ex : Expansions) (ms : List Matcher)
    (hex : ∀ id, NamesSource ms id → ∃ xs, ex id = some xs ∧ xs ≠ [] ∧ ∀ x ∈ xs, '|' ∉ x) (y : Str) :
    NamesSource (ms.map (replaceMatcher ex)) y ↔ ∃ id xs, NamesSource ms id ∧ ex id = some xs ∧ y ∈ xs := by
  have := replaceSets_names ex (.vector ms) (fun id h => hex id (by
    obtain ⟨ms', h1, h2⟩ := h; cases h1; exact h2)) y
  constructor
  · intro h
    obtain ⟨id, xs, ⟨ms', h1, h2⟩, h3⟩ := this.1 ⟨_, .vector, h⟩
    cases h1
    exact ⟨id, xs, h2, h3⟩
  · rintro ⟨id, xs, h2, h3⟩
    obtain ⟨ms', h1, h4⟩ := this.2 ⟨id, xs, ⟨_, .vector, h2⟩, h3⟩
    cases h1
    exact h4

theorem setExpansions_blank (m : Matcher) (xs : List Str) (hn : m.name = "source_id".toList) :
    blankMatcher (setExpansions m xs) = { m with type := .equal, value := [] } := by
  unfold setExpansions blankMatcher
  rw [if_pos]
  refine ⟨hn, ?_⟩
  show (if xs.length > 1 then MatchType.regexp else .equal) = .equal ∨ (if xs.length > 1 then MatchType.regexp else .equal) = .regexp
  split
  · exact Or.inr rfl
  · exact Or.inl rfl

theorem blank_replaceMatcher (ex : Expansions) (m : Matcher) :
    blankMatcher (replaceMatcher ex m) = blankMatcher m := by
  unfold replaceMatcher
  by_cases h : m.name = sourceIdLabel
  · have h' : m.name = "source_id".toList := h
    rw [if_pos h]
    rcases ht : m.type with _ | _ | _ | _ <;> simp only []
    all_goals first
      | rfl
      | (unfold replaceEqual
         split
         · rw [setExpansions_blank _ _ h', blankMatcher, if_pos ⟨h', by rw [ht]; simp⟩]
         · rfl)
      | (unfold replaceRegexp
         rw [setExpansions_blank _ _ h', blankMatcher, if_pos ⟨h', by rw [ht]; simp⟩])
  · rw [if_neg h]

mutual
theorem blank_replace (ex : Expansions) : ∀ e : PExpr, blankSources (replaceSets ex e) = blankSources e
  | .vector ms => by simp [replaceSets, blankSources, blank_replaceMatcher]
  | .matrix ms => by simp [replaceSets, blankSources, blank_replaceMatcher]
  | .literal t => by simp [replaceSets, blankSources]
  | .node n args => by rw [replaceSets, blankSources, blankSources, blank_replaceList ex args]
theorem blank_replaceList (ex : Expansions) : ∀ es : List PExpr,
    blankSources.ofList (replaceSetsList ex es) = blankSources.ofList es
  | [] => by rw [replaceSetsList]
  | e :: es => by rw [replaceSetsList, blankSources.ofList, blankSources.ofList, blank_replace ex e, blank_replaceList ex es]
end

/-! ## Select reads only the named sources -/

theorem selectLoop_congr (a : SelectArgs) (interval start stop : Int)
    (r1 r2 : ReadRequest → Option (List Envelope)) (ids : List Str)
    (h : ∀ id ∈ ids, r1 (selectRequest start stop id) = r2 (selectRequest start stop id)) :
    ∀ b, selectLoop a interval start stop r1 ids b = selectLoop a interval start stop r2 ids b := by
  induction ids with
  | nil => intro b; rfl
  | cons id ids ih =>
    intro b
    rw [selectLoop, selectLoop, h id (List.mem_cons_self ..)]
    cases r2 (selectRequest start stop id) with
    | none => rfl
    | some es => exact ih (fun x hx => h x (List.mem_cons_of_mem _ hx)) _

theorem selectLoop_none (a : SelectArgs) (interval start stop : Int)
    (r : ReadRequest → Option (List Envelope)) (ids : List Str) (id : Str) (hid : id ∈ ids)
    (h : r (selectRequest start stop id) = none) :
    ∀ b, selectLoop a interval start stop r ids b = none := by
  induction ids with
  | nil => cases hid
  | cons x ids ih =>
    intro b
    rw [selectLoop]
    cases hx : r (selectRequest start stop x) with
    | none => rfl
    | some es =>
      rcases List.mem_cons.1 hid with rfl | hid
      · rw [h] at hx; cases hx
      · exact ih hid _

end LogCache
