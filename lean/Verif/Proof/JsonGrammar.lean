import Verif.Spec.JsonGrammar
import Verif.Proof.JsonText

/-! # The reader accepts the grammar, and nothing else -/

namespace LogCache
open Spec

/-! ## Strings -/

private theorem hexVal_table (c : Char) (n : Nat) : hexVal c = some n ↔ (c, n) ∈ hexTable := by
  constructor
  · intro h
    have hc : c.toNat < 128 := by
      unfold hexVal at h
      split at h
      · rename_i h1; have : c.toNat ≤ ('9' : Char).toNat := h1.2; simp at this; omega
      split at h
      · rename_i h1; have : c.toNat ≤ ('f' : Char).toNat := h1.2; simp at this; omega
      split at h
      · rename_i h1; have : c.toNat ≤ ('F' : Char).toNat := h1.2; simp at this; omega
      · cases h
    have key : ∀ k : Fin 128, ∀ m, hexVal (Char.ofNat k.1) = some m → (Char.ofNat k.1, m) ∈ hexTable := by
      have : ∀ k : Fin 128, ((hexVal (Char.ofNat k.1)).all fun m => decide ((Char.ofNat k.1, m) ∈ hexTable)) = true := by decide +kernel
      intro k m hm
      have h1 := this k
      rw [hm] at h1
      simpa using h1
    have := key ⟨c.toNat, hc⟩ n
    simp only [Char.ofNat_toNat] at this
    exact this h
  · intro h
    have key : ∀ p ∈ hexTable, hexVal p.1 = some p.2 := by decide
    exact key _ h

private theorem hex4_spec (a b c d : Char) (n : Nat) : hex4 a b c d = some n ↔ Hex4 [a, b, c, d] n := by
  unfold Hex4
  constructor
  · intro h
    unfold hex4 at h
    split at h
    · rename_i x y z w hx hy hz hw
      cases h
      exact ⟨a, b, c, d, x, y, z, w, rfl, (hexVal_table _ _).1 hx, (hexVal_table _ _).1 hy, (hexVal_table _ _).1 hz,
        (hexVal_table _ _).1 hw, by omega⟩
    · cases h
  · rintro ⟨a', b', c', d', x, y, z, w, he, hx, hy, hz, hw, rfl⟩
    injection he with e1 he
    injection he with e2 he
    injection he with e3 he
    injection he with e4 he
    subst e1 e2 e3 e4
    unfold hex4
    rw [(hexVal_table _ _).2 hx, (hexVal_table _ _).2 hy, (hexVal_table _ _).2 hz, (hexVal_table _ _).2 hw]
    simp only [Option.some.injEq]
    omega

private theorem hex4_four {h : Str} {n : Nat} (hx : Hex4 h n) : ∃ a b c d, h = [a, b, c, d] ∧ hex4 a b c d = some n := by
  obtain ⟨a, b, c, d, x, y, z, w, rfl, h⟩ := hx
  exact ⟨a, b, c, d, rfl, (hex4_spec _ _ _ _ _).2 ⟨a, b, c, d, x, y, z, w, rfl, h⟩⟩

private theorem escape_table (e c : Char) : simpleEscape e = some c ↔ (e, c) ∈ escapeTable := by
  constructor
  · intro h
    unfold simpleEscape at h
    repeat' (split at h)
    · rename_i h1; cases h; rcases h1 with rfl | rfl | rfl <;> decide
    all_goals first | (cases h; subst_vars; decide) | cases h
  · intro h
    have key : ∀ p ∈ escapeTable, simpleEscape p.1 = some p.2 := by decide
    exact key _ h

/-- What a text between quotes consists of. -/
inductive UnitsText : Str → List StrUnit → Prop
  | nil : UnitsText [] []
  | plain {c : Char} {t us} : c ≠ '"' → c ≠ '\\' → 32 ≤ c.toNat → UnitsText t us → UnitsText (c :: t) (.lit c :: us)
  | escape {e c : Char} {t us} : (e, c) ∈ escapeTable → UnitsText t us → UnitsText ('\\' :: e :: t) (.lit c :: us)
  | code {h : Str} {n : Nat} {t us} : Hex4 h n → UnitsText t us → UnitsText ('\\' :: 'u' :: (h ++ t)) (.code n :: us)

private theorem no_u (c : Char) : ('u', c) ∉ escapeTable := by
  intro h
  simp [escapeTable] at h

private theorem units_complete {t : Str} {us : List StrUnit} (h : UnitsText t us) (r : Str) :
    readUnits (t ++ '"' :: r) = some (us, r) := by
  induction h with
  | nil => show readUnits ('"' :: r) = _; rw [readUnits.eq_def]; rfl
  | plain h1 h2 h3 _ ih =>
    rw [List.cons_append, readUnits.eq_def]
    simp only
    rw [if_neg h1, if_neg h2, if_neg (by omega), ih]; rfl
  | @escape e c t us h1 _ ih =>
    rw [List.cons_append, List.cons_append, readUnits.eq_def]
    simp only
    rw [if_neg (by decide), if_pos trivial, if_neg (by rintro rfl; exact no_u _ h1), (escape_table _ _).2 h1]
    simp only
    rw [ih]; rfl
  | code h1 _ ih =>
    obtain ⟨a, b, c, d, rfl, h2⟩ := hex4_four h1
    show readUnits ('\\' :: 'u' :: a :: b :: c :: d :: (_ ++ '"' :: r)) = _
    rw [readUnits.eq_def]
    simp only
    rw [if_neg (by decide), if_pos trivial, if_pos trivial, h2]
    simp only
    have e : ∀ z : Str, [].append z = z := fun _ => rfl
    rw [e, ih]; rfl

private theorem units_sound : ∀ (k : Nat) (s : Str) (us : List StrUnit) (r : Str), s.length ≤ k → readUnits s = some (us, r) →
    ∃ t, s = t ++ '"' :: r ∧ UnitsText t us := by
  intro k
  induction k with
  | zero =>
    intro s us r hk h
    cases s with
    | nil => rw [readUnits.eq_def] at h; cases h
    | cons c s => simp at hk
  | succ k ih =>
    intro s us r hk h
    cases s with
    | nil => rw [readUnits.eq_def] at h; cases h
    | cons c s =>
      rw [readUnits.eq_def] at h
      simp only at h
      by_cases hq : c = '"'
      · rw [if_pos hq] at h; cases h; exact ⟨[], by rw [hq]; rfl, .nil⟩
      rw [if_neg hq] at h
      by_cases hb : c = '\\'
      · rw [if_pos hb] at h
        subst hb
        cases s with
        | nil => cases h
        | cons e s =>
          simp only at h
          by_cases hu : e = 'u'
          · subst hu
            rw [if_pos rfl] at h
            rcases s with _ | ⟨a, _ | ⟨b, _ | ⟨c, _ | ⟨d, s⟩⟩⟩⟩ <;> try cases h
            simp only at h
            cases hx : hex4 a b c d with
            | none => rw [hx] at h; cases h
            | some n =>
              rw [hx] at h
              simp only [Option.map_eq_some_iff] at h
              obtain ⟨⟨us', r'⟩, h1, h2⟩ := h
              cases h2
              obtain ⟨t, rfl, ht⟩ := ih s us' r' (by simp at hk; omega) h1
              exact ⟨'\\' :: 'u' :: ([a, b, c, d] ++ t), rfl, .code ((hex4_spec _ _ _ _ _).1 hx) ht⟩
          · rw [if_neg hu] at h
            cases hx : simpleEscape e with
            | none => rw [hx] at h; cases h
            | some x =>
              rw [hx] at h
              simp only [Option.map_eq_some_iff] at h
              obtain ⟨⟨us', r'⟩, h1, h2⟩ := h
              cases h2
              obtain ⟨t, rfl, ht⟩ := ih s us' r' (by simp at hk; omega) h1
              exact ⟨'\\' :: e :: t, rfl, .escape ((escape_table _ _).1 hx) ht⟩
      · rw [if_neg hb] at h
        by_cases hc : c.toNat < 32
        · rw [if_pos hc] at h; cases h
        · rw [if_neg hc] at h
          simp only [Option.map_eq_some_iff] at h
          obtain ⟨⟨us', r'⟩, h1, h2⟩ := h
          cases h2
          obtain ⟨t, rfl, ht⟩ := ih s us' r' (by simp at hk; omega) h1
          exact ⟨c :: t, rfl, .plain hq hb (by omega) ht⟩

/-- The first unit is the second half of a pair exactly if the text begins with its escape. -/
private theorem lowUnit_text {t : Str} {us : List StrUnit} (h : UnitsText t us) (m : Nat) :
    lowUnit us = some m ↔ LowHalf m ∧ ∃ l t' us', us = .code m :: us' ∧ t = '\\' :: 'u' :: (l ++ t') ∧ Hex4 l m ∧ UnitsText t' us' := by
  unfold LowHalf
  cases h with
  | nil => simp [lowUnit]
  | plain => simp [lowUnit]
  | escape => simp [lowUnit]
  | @code l n t us h1 h2 =>
    rw [lowUnit]
    constructor
    · intro h
      split at h
      · cases h; exact ⟨by omega, l, t, us, rfl, rfl, h1, h2⟩
      · cases h
    · rintro ⟨hm, l', t', us', he, -, -, -⟩
      injection he with e1 e2
      injection e1 with e1
      subst e1
      rw [if_pos (by omega)]

private theorem low_join {m : Nat} (hm : LowHalf m) (us : List StrUnit) : joinUnits (.code m :: us) = Char.ofNat 0xFFFD :: joinUnits us := by
  unfold LowHalf at hm
  rw [joinUnits, if_neg (by omega), if_pos (by omega)]

/-- Four digits are read in one way. -/
private theorem hex4_append {l l' t t' : Str} {n m : Nat} (h : Hex4 l n) (h' : Hex4 l' m) (e : l ++ t = l' ++ t') : n = m := by
  obtain ⟨a, b, c, d, rfl, h1⟩ := hex4_four h
  obtain ⟨a', b', c', d', rfl, h2⟩ := hex4_four h'
  simp only [List.cons_append, List.nil_append] at e
  injection e with e1 e
  injection e with e2 e
  injection e with e3 e
  injection e with e4 e
  subst e1 e2 e3 e4
  rw [h1] at h2
  injection h2

private theorem strText_units : ∀ (k : Nat) {t : Str} {us : List StrUnit}, t.length ≤ k → UnitsText t us → StrText t (joinUnits us) := by
  intro k
  induction k with
  | zero =>
    intro t us hk h
    cases h with
    | nil => exact .nil
    | plain => simp at hk
    | escape => simp at hk
    | code => simp at hk
  | succ k ih =>
    intro t us hk h
    cases h with
    | nil => exact .nil
    | plain h1 h2 h3 h4 => exact .plain h1 h2 h3 (ih (by simp at hk; omega) h4)
    | escape h1 h2 => exact .escape h1 (ih (by simp at hk; omega) h2)
    | @code h n t us h1 h2 =>
      have hlen : t.length ≤ k := by simp at hk; omega
      rw [joinUnits]
      by_cases hh : 0xD800 ≤ n ∧ n < 0xDC00
      · rw [if_pos hh]
        cases hl : lowUnit us with
        | some m =>
          obtain ⟨hm, l, t', us', rfl, rfl, h3, h4⟩ := (lowUnit_text h2 m).1 hl
          simp only
          rw [low_join hm]
          exact .pair h1 ⟨hh.1, by omega⟩ h3 hm (ih (by simp at hlen; omega) h4)
        | none =>
          refine .loneHigh h1 ⟨hh.1, by omega⟩ ?_ (ih hlen h2)
          rintro ⟨l, m, t', rfl, h3, h4⟩
          have : ∃ us', us = .code m :: us' := by
            clear ih hl
            generalize hz : ('\\' :: 'u' :: (l ++ t')) = z at h2
            cases h2 with
            | nil => cases hz
            | plain g1 g2 => injection hz with e1 e2; exact absurd e1.symm g2
            | escape g1 => injection hz with e1 e2; injection e2 with e2 e3; subst e2; exact absurd g1 (no_u _)
            | @code l' m' t'' us'' g1 g2 =>
              injection hz with e1 e2
              injection e2 with e2 e3
              have := hex4_append h3 g1 e3
              subst this
              exact ⟨us'', rfl⟩
          obtain ⟨us', rfl⟩ := this
          rw [lowUnit, if_pos (by unfold LowHalf at h4; omega)] at hl
          cases hl
      · rw [if_neg hh]
        by_cases hl : 0xDC00 ≤ n ∧ n < 0xE000
        · rw [if_pos hl]
          exact .loneLow h1 ⟨hl.1, by omega⟩ (ih hlen h2)
        · rw [if_neg hl]
          exact .unit h1 (fun h => hh ⟨h.1, by unfold HighHalf at h; omega⟩) (fun h => hl ⟨h.1, by unfold LowHalf at h; omega⟩) (ih hlen h2)

private theorem units_strText {t v : Str} (h : StrText t v) : ∃ us, UnitsText t us ∧ joinUnits us = v := by
  induction h with
  | nil => exact ⟨[], .nil, rfl⟩
  | @plain c t v h1 h2 h3 _ ih =>
    obtain ⟨us, h4, rfl⟩ := ih
    exact ⟨_, .plain h1 h2 h3 h4, rfl⟩
  | @escape e c t v h1 _ ih =>
    obtain ⟨us, h4, rfl⟩ := ih
    exact ⟨_, .escape h1 h4, rfl⟩
  | @unit h n t v h1 h2 h3 _ ih =>
    obtain ⟨us, h4, rfl⟩ := ih
    refine ⟨_, .code h1 h4, ?_⟩
    rw [joinUnits, if_neg (fun h => h2 ⟨h.1, by omega⟩), if_neg (fun h => h3 ⟨h.1, by omega⟩)]
  | @pair h l n m t v h1 h2 h3 h4 _ ih =>
    obtain ⟨us, h5, rfl⟩ := ih
    refine ⟨_, .code h1 (.code h3 h5), ?_⟩
    have h4' := h4
    unfold LowHalf at h4'
    unfold HighHalf at h2
    rw [joinUnits, if_pos (by omega), lowUnit, if_pos (by omega)]
    simp only
    rw [low_join h4]
    rfl
  | @loneLow h n t v h1 h2 _ ih =>
    obtain ⟨us, h4, rfl⟩ := ih
    exact ⟨_, .code h1 h4, low_join h2 us⟩
  | @loneHigh h n t v h1 h2 h3 _ ih =>
    obtain ⟨us, h4, rfl⟩ := ih
    refine ⟨_, .code h1 h4, ?_⟩
    unfold HighHalf at h2
    rw [joinUnits, if_pos (by omega)]
    cases hl : lowUnit us with
    | none => rfl
    | some m =>
      obtain ⟨hm, l, t', us', rfl, rfl, h5, h6⟩ := (lowUnit_text h4 m).1 hl
      exact absurd ⟨l, m, t', rfl, h5, hm⟩ h3

/-- A string literal is read exactly as the grammar says. -/
theorem readJsonStr_iff (s v r : Str) : readJsonStr s = some (v, r) ↔ ∃ t, s = t ++ '"' :: r ∧ StrText t v := by
  unfold readJsonStr
  constructor
  · intro h
    rw [Option.map_eq_some_iff] at h
    obtain ⟨⟨us, r'⟩, h1, h2⟩ := h
    cases h2
    obtain ⟨t, h3, h4⟩ := units_sound _ s us r' (Nat.le_refl _) h1
    exact ⟨t, h3, strText_units _ (Nat.le_refl _) h4⟩
  · rintro ⟨t, rfl, h⟩
    obtain ⟨us, h1, rfl⟩ := units_strText h
    rw [units_complete h1]
    rfl

/-! ## Documents -/

theorem skipSpace_split (s : Str) : ∃ b, Blank b ∧ s = b ++ skipSpace s := by
  unfold skipSpace
  induction s with
  | nil => exact ⟨[], (fun _ h => by cases h), rfl⟩
  | cons c s ih =>
    rw [List.dropWhile_cons]
    split
    · rename_i hc
      obtain ⟨b, hb, hs⟩ := ih
      refine ⟨c :: b, ?_, by rw [List.cons_append, ← hs]⟩
      intro x hx
      rcases List.mem_cons.1 hx with rfl | hx
      · unfold jsonSpace at hc
        simpa [or_assoc] using hc
      · exact hb x hx
    · exact ⟨[], (fun _ h => by cases h), rfl⟩

private theorem blank_space {c : Char} {b : Str} (h : Blank b) (hc : c ∈ b) : jsonSpace c = true := by
  unfold jsonSpace
  rcases h c hc with rfl | rfl | rfl | rfl <;> decide

theorem skipSpace_blank {b : Str} (h : Blank b) (c : Char) (s : Str) (hc : jsonSpace c = false) :
    skipSpace (b ++ c :: s) = c :: s := by
  unfold skipSpace
  induction b with
  | nil => simp [hc]
  | cons x b ih =>
    rw [List.cons_append, List.dropWhile_cons, if_pos (blank_space h (.head _))]
    exact ih fun y hy => h y (.tail _ hy)

private theorem blank_numEnd {b s : Str} (h : Blank b) (hs : NumEnd s) : NumEnd (b ++ s) := by
  cases b with
  | nil => exact hs
  | cons c b => rcases h c (.head _) with rfl | rfl | rfl | rfl <;> exact ⟨by decide, by decide, by decide, by decide⟩

private theorem readWord_iff (w s r : Str) : readWord w s = some r ↔ s = w ++ r := by
  induction w generalizing s with
  | nil => rw [readWord]; simp
  | cons x w ih =>
    cases s with
    | nil => rw [readWord]; simp
    | cons c s =>
      rw [readWord]
      split
      · rename_i h; subst h; rw [ih]; simp
      · rename_i h; simp [h]

/-- What one step of each reader has read. -/
private def ReadSound (n : Nat) : Prop :=
  (∀ s j r, readValue n s = some (j, r) → ∃ b t, s = b ++ (t ++ r) ∧ Blank b ∧ JText j t) ∧
  (∀ s xs r, readElems n s = some (xs, r) → ∃ b, Blank b ∧
    (xs = [] ∧ s = b ++ ']' :: r ∨ ∃ t, JElems xs t ∧ s = b ++ ',' :: (t ++ ']' :: r))) ∧
  (∀ s k v r, readMember n s = some ((k, v), r) → ∃ b1 kt b2 b3 t, Blank b1 ∧ StrText kt k ∧ Blank b2 ∧ Blank b3 ∧ JText v t ∧
    s = b1 ++ '"' :: (kt ++ '"' :: (b2 ++ ':' :: (b3 ++ (t ++ r))))) ∧
  (∀ s fs r, readMembers n s = some (fs, r) → ∃ b, Blank b ∧
    (fs = [] ∧ s = b ++ '}' :: r ∨ ∃ t, JMembers fs t ∧ s = b ++ ',' :: (t ++ '}' :: r)))

private theorem elems_join {x : Json} {xs : List Json} {b t r2 r : Str} (hb : Blank b) (ht : JText x t)
    (h : ∃ a, Blank a ∧ (xs = [] ∧ r2 = a ++ ']' :: r ∨ ∃ u, JElems xs u ∧ r2 = a ++ ',' :: (u ++ ']' :: r))) :
    ∃ t', JElems (x :: xs) t' ∧ b ++ (t ++ r2) = t' ++ ']' :: r := by
  obtain ⟨a, ha, ⟨rfl, rfl⟩ | ⟨u, hu, rfl⟩⟩ := h
  · exact ⟨b ++ (t ++ a), .one hb ht ha, by simp⟩
  · exact ⟨b ++ (t ++ (a ++ ',' :: u)), .more hb ht ha hu, by simp⟩

private theorem members_join {k kt : Str} {v : Json} {fs : List (Str × Json)} {b1 b2 b3 t r2 r : Str} (h1 : Blank b1) (hk : StrText kt k)
    (h2 : Blank b2) (h3 : Blank b3) (ht : JText v t)
    (h : ∃ a, Blank a ∧ (fs = [] ∧ r2 = a ++ '}' :: r ∨ ∃ u, JMembers fs u ∧ r2 = a ++ ',' :: (u ++ '}' :: r))) :
    ∃ t', JMembers ((k, v) :: fs) t' ∧ b1 ++ '"' :: (kt ++ '"' :: (b2 ++ ':' :: (b3 ++ (t ++ r2)))) = t' ++ '}' :: r := by
  obtain ⟨a, ha, ⟨rfl, rfl⟩ | ⟨u, hu, rfl⟩⟩ := h
  · exact ⟨_, .one (.mk h1 hk h2 h3 ht ha), by simp⟩
  · exact ⟨_, .more (.mk h1 hk h2 h3 ht ha) hu, by simp⟩

private theorem read_sound : ∀ n, ReadSound n := by
  intro n
  induction n with
  | zero =>
    refine ⟨?_, ?_, ?_, ?_⟩
    · intro s j r h; rw [readValue.eq_def] at h; cases h
    · intro s j r h; rw [readElems.eq_def] at h; cases h
    · intro s k v r h; rw [readMember.eq_def] at h; cases h
    · intro s j r h; rw [readMembers.eq_def] at h; cases h
  | succ n ih =>
    obtain ⟨ihV, ihE, ihM, ihF⟩ := ih
    refine ⟨?_, ?_, ?_, ?_⟩
    · intro s j r h
      obtain ⟨b, hb, hs⟩ := skipSpace_split s
      rw [readValue.eq_def] at h
      simp only at h
      cases hk : skipSpace s with
      | nil => rw [hk] at h; cases h
      | cons c q =>
        rw [hk] at h hs
        simp only at h
        suffices h' : ∃ t, c :: q = t ++ r ∧ JText j t by
          obtain ⟨t, h1, h2⟩ := h'
          exact ⟨b, t, by rw [hs, h1], hb, h2⟩
        clear hk hs hb
        by_cases c1 : c = '"'
        · rw [if_pos c1, Option.map_eq_some_iff] at h
          obtain ⟨⟨v, r'⟩, h1, h2⟩ := h
          cases h2
          obtain ⟨t, rfl, ht⟩ := (readJsonStr_iff _ _ _).1 h1
          subst c1
          exact ⟨_, by simp, .str ht⟩
        rw [if_neg c1] at h
        by_cases c2 : c = '['
        · rw [if_pos c2] at h
          subst c2
          obtain ⟨b', hb', hs'⟩ := skipSpace_split q
          cases hk : skipSpace q with
          | nil => rw [hk] at h; cases h
          | cons d q1 =>
            rw [hk] at h hs'
            simp only at h
            by_cases d1 : d = ']'
            · rw [if_pos d1] at h
              cases h
              subst d1
              exact ⟨'[' :: (b' ++ [']']), by rw [hs']; simp, .emptyArr hb'⟩
            · rw [if_neg d1] at h
              cases hv : readValue n (d :: q1) with
              | none => rw [hv] at h; cases h
              | some p =>
                obtain ⟨x, r2⟩ := p
                rw [hv] at h
                simp only [Option.map_eq_some_iff] at h
                obtain ⟨⟨xs, r'⟩, h1, h2⟩ := h
                cases h2
                obtain ⟨b2, t2, h3, hb2, ht2⟩ := ihV _ _ _ hv
                obtain ⟨t', h4, h5⟩ := elems_join (b := b' ++ b2) (by
                  intro y hy
                  rcases List.mem_append.1 hy with hy | hy
                  · exact hb' y hy
                  · exact hb2 y hy) ht2 (ihE _ _ _ h1)
                refine ⟨'[' :: (t' ++ [']']), ?_, .arr h4⟩
                rw [hs', h3, ← List.append_assoc, h5]; simp
        rw [if_neg c2] at h
        by_cases c3 : c = '{'
        · rw [if_pos c3] at h
          subst c3
          obtain ⟨b', hb', hs'⟩ := skipSpace_split q
          cases hk : skipSpace q with
          | nil => rw [hk] at h; cases h
          | cons d q1 =>
            rw [hk] at h hs'
            simp only at h
            by_cases d1 : d = '}'
            · rw [if_pos d1] at h
              cases h
              subst d1
              exact ⟨'{' :: (b' ++ ['}']), by rw [hs']; simp, .emptyObj hb'⟩
            · rw [if_neg d1] at h
              cases hv : readMember n (d :: q1) with
              | none => rw [hv] at h; cases h
              | some p =>
                obtain ⟨⟨k, v⟩, r2⟩ := p
                rw [hv] at h
                simp only [Option.map_eq_some_iff] at h
                obtain ⟨⟨xs, r'⟩, h1, h2⟩ := h
                cases h2
                obtain ⟨b1, kt, b2, b3, t2, hb1, hkt, hb2, hb3, ht2, h3⟩ := ihM _ _ _ _ hv
                obtain ⟨t', h4, h5⟩ := members_join (b1 := b' ++ b1) (by
                  intro y hy
                  rcases List.mem_append.1 hy with hy | hy
                  · exact hb' y hy
                  · exact hb1 y hy) hkt hb2 hb3 ht2 (ihF _ _ _ h1)
                refine ⟨'{' :: (t' ++ ['}']), ?_, .obj h4⟩
                rw [hs', h3, ← List.append_assoc, h5]; simp
        rw [if_neg c3] at h
        by_cases c4 : c = 'n'
        · rw [if_pos c4, Option.map_eq_some_iff] at h
          obtain ⟨r', h1, h2⟩ := h
          cases h2
          rw [readWord_iff] at h1
          subst c4 h1
          exact ⟨_, rfl, .null⟩
        rw [if_neg c4] at h
        by_cases c5 : c = 't'
        · rw [if_pos c5, Option.map_eq_some_iff] at h
          obtain ⟨r', h1, h2⟩ := h
          cases h2
          rw [readWord_iff] at h1
          subst c5 h1
          exact ⟨_, rfl, .yes⟩
        rw [if_neg c5] at h
        by_cases c6 : c = 'f'
        · rw [if_pos c6, Option.map_eq_some_iff] at h
          obtain ⟨r', h1, h2⟩ := h
          cases h2
          rw [readWord_iff] at h1
          subst c6 h1
          exact ⟨_, rfl, .no⟩
        rw [if_neg c6, Option.map_eq_some_iff] at h
        obtain ⟨⟨t, r'⟩, h1, h2⟩ := h
        cases h2
        obtain ⟨h3, h4⟩ := readJsonNum_sound h1
        exact ⟨t, h3, .num h4⟩
    · intro s xs r h
      obtain ⟨b, hb, hs⟩ := skipSpace_split s
      rw [readElems.eq_def] at h
      simp only at h
      cases hk : skipSpace s with
      | nil => rw [hk] at h; cases h
      | cons c q =>
        rw [hk] at h hs
        simp only at h
        refine ⟨b, hb, ?_⟩
        by_cases c1 : c = ']'
        · rw [if_pos c1] at h; cases h; subst c1; exact .inl ⟨rfl, hs⟩
        rw [if_neg c1] at h
        by_cases c2 : c = ','
        · rw [if_pos c2] at h
          subst c2
          cases hv : readValue n q with
          | none => rw [hv] at h; cases h
          | some p =>
            obtain ⟨x, r2⟩ := p
            rw [hv] at h
            simp only [Option.map_eq_some_iff] at h
            obtain ⟨⟨xs', r'⟩, h1, h2⟩ := h
            cases h2
            obtain ⟨b2, t2, h3, hb2, ht2⟩ := ihV _ _ _ hv
            obtain ⟨t', h4, h5⟩ := elems_join hb2 ht2 (ihE _ _ _ h1)
            exact .inr ⟨t', h4, by rw [hs, h3, h5]⟩
        · rw [if_neg c2] at h; cases h
    · intro s k v r h
      obtain ⟨b, hb, hs⟩ := skipSpace_split s
      rw [readMember.eq_def] at h
      simp only at h
      cases hk : skipSpace s with
      | nil => rw [hk] at h; cases h
      | cons c q =>
        rw [hk] at h hs
        simp only at h
        by_cases c1 : c = '"'
        · rw [if_pos c1] at h
          subst c1
          cases hq : readJsonStr q with
          | none => rw [hq] at h; cases h
          | some p =>
            obtain ⟨k', r1⟩ := p
            rw [hq] at h
            simp only at h
            obtain ⟨kt, rfl, hkt⟩ := (readJsonStr_iff _ _ _).1 hq
            obtain ⟨b2, hb2, hs2⟩ := skipSpace_split r1
            cases hk2 : skipSpace r1 with
            | nil => rw [hk2] at h; cases h
            | cons d r2 =>
              rw [hk2] at h hs2
              simp only at h
              by_cases d1 : d = ':'
              · rw [if_pos d1, Option.map_eq_some_iff] at h
                obtain ⟨⟨v', r'⟩, h1, h2⟩ := h
                cases h2
                obtain ⟨b3, t, h3, hb3, ht⟩ := ihV _ _ _ h1
                subst d1
                exact ⟨b, kt, b2, b3, t, hb, hkt, hb2, hb3, ht, by rw [hs, hs2, h3]⟩
              · rw [if_neg d1] at h; cases h
        · rw [if_neg c1] at h; cases h
    · intro s fs r h
      obtain ⟨b, hb, hs⟩ := skipSpace_split s
      rw [readMembers.eq_def] at h
      simp only at h
      cases hk : skipSpace s with
      | nil => rw [hk] at h; cases h
      | cons c q =>
        rw [hk] at h hs
        simp only at h
        refine ⟨b, hb, ?_⟩
        by_cases c1 : c = '}'
        · rw [if_pos c1] at h; cases h; subst c1; exact .inl ⟨rfl, hs⟩
        rw [if_neg c1] at h
        by_cases c2 : c = ','
        · rw [if_pos c2] at h
          subst c2
          cases hv : readMember n q with
          | none => rw [hv] at h; cases h
          | some p =>
            obtain ⟨⟨k, v⟩, r2⟩ := p
            rw [hv] at h
            simp only [Option.map_eq_some_iff] at h
            obtain ⟨⟨xs', r'⟩, h1, h2⟩ := h
            cases h2
            obtain ⟨b1, kt, b2, b3, t2, hb1, hkt, hb2, hb3, ht2, h3⟩ := ihM _ _ _ _ hv
            obtain ⟨t', h4, h5⟩ := members_join hb1 hkt hb2 hb3 ht2 (ihF _ _ _ h1)
            exact .inr ⟨t', h4, by rw [hs, h3, h5]⟩
        · rw [if_neg c2] at h; cases h

/-- What is read as a document is one, by the grammar. -/
theorem readValue_sound {n : Nat} {s : Str} {j : Json} {r : Str} (h : readValue n s = some (j, r)) :
    ∃ b t, s = b ++ (t ++ r) ∧ Blank b ∧ JText j t := (read_sound n).1 s j r h

/-- How a document begins. -/
private theorem jText_head {j : Json} {t : Str} (h : JText j t) : ∃ c r, t = c :: r ∧ jsonSpace c = false ∧ c ≠ ']' := by
  cases h with
  | num h =>
    obtain ⟨c, r, rfl, hc⟩ := numText_head h
    refine ⟨c, r, rfl, ?_, ?_⟩
    · cases hs : jsonSpace c with
      | false => rfl
      | true =>
        unfold jsonSpace at hs
        simp only [Bool.or_eq_true, decide_eq_true_eq] at hs
        rcases hs with ((rfl | rfl) | rfl) | rfl <;> (rcases hc with h' | h' <;> revert h' <;> decide)
    · rintro rfl
      rcases hc with h' | h' <;> revert h' <;> decide
  | null => exact ⟨_, _, rfl, by decide, by decide⟩
  | yes => exact ⟨_, _, rfl, by decide, by decide⟩
  | no => exact ⟨_, _, rfl, by decide, by decide⟩
  | str => exact ⟨_, _, rfl, by decide, by decide⟩
  | emptyArr => exact ⟨_, _, rfl, by decide, by decide⟩
  | arr => exact ⟨_, _, rfl, by decide, by decide⟩
  | emptyObj => exact ⟨_, _, rfl, by decide, by decide⟩
  | obj => exact ⟨_, _, rfl, by decide, by decide⟩

private theorem end_close : ∀ (c : Char) (r : Str), c = ',' ∨ c = ']' ∨ c = '}' → NumEnd (c :: r) := by
  rintro c r (rfl | rfl | rfl) <;> exact ⟨by decide, by decide, by decide, by decide⟩

private theorem steps_pos (j : Json) : 1 ≤ jsonSteps j := by unfold jsonSteps; split <;> omega

mutual
/-- A document of the grammar is read as that document. -/
theorem readValue_complete : ∀ {j : Json} {t : Str}, JText j t → ∀ (n : Nat) (b r : Str), jsonSteps j ≤ n → Blank b → NumEnd r →
    readValue n (b ++ (t ++ r)) = some (j, r)
  | j, t, h, 0, _, _, hn, _, _ => by have := steps_pos j; omega
  | _, _, .null, n + 1, b, r, _, hb, _ => by
    rw [readValue.eq_def]; simp only
    rw [List.cons_append, skipSpace_blank hb _ _ (by decide)]; rfl
  | _, _, .yes, n + 1, b, r, _, hb, _ => by
    rw [readValue.eq_def]; simp only
    rw [List.cons_append, skipSpace_blank hb _ _ (by decide)]; rfl
  | _, _, .no, n + 1, b, r, _, hb, _ => by
    rw [readValue.eq_def]; simp only
    rw [List.cons_append, skipSpace_blank hb _ _ (by decide)]; rfl
  | _, _, .num (t := t) h, n + 1, b, r, _, hb, hr => by
    have hread := readJsonNum_complete h hr
    obtain ⟨c, t', rfl, hc⟩ := numText_head h
    have hne : c ≠ '"' ∧ c ≠ '[' ∧ c ≠ '{' ∧ c ≠ 'n' ∧ c ≠ 't' ∧ c ≠ 'f' := by
      refine ⟨?_, ?_, ?_, ?_, ?_, ?_⟩ <;> (rintro rfl; rcases hc with h' | h' <;> revert h' <;> decide)
    obtain ⟨c', _, he, hs, -⟩ := jText_head (.num h)
    injection he with he _
    subst he
    rw [readValue.eq_def]; simp only
    rw [List.cons_append] at hread ⊢
    rw [skipSpace_blank hb _ _ hs]
    simp only [hne.1, hne.2.1, hne.2.2.1, hne.2.2.2.1, hne.2.2.2.2.1, hne.2.2.2.2.2, if_false, hread, Option.map_some]
  | _, _, .str (t := t) (v := v) h, n + 1, b, r, _, hb, _ => by
    rw [readValue.eq_def]; simp only
    rw [List.cons_append, skipSpace_blank hb _ _ (by decide)]
    have : readJsonStr (t ++ ['"'] ++ r) = some (v, r) := (readJsonStr_iff _ _ _).2 ⟨t, by simp, h⟩
    simp only [if_true, this, Option.map_some]
  | _, _, .emptyArr (b := b') h, n + 1, b, r, _, hb, _ => by
    rw [readValue.eq_def]; simp only
    rw [List.cons_append, skipSpace_blank hb _ _ (by decide)]
    simp only [show ¬ ('[' : Char) = '"' by decide, if_false, if_true, List.append_assoc, List.cons_append, List.nil_append]
    rw [skipSpace_blank h _ _ (by decide)]
    rfl
  | _, _, .arr (.one (x := x) (b := b1) (t := t) (a := a) h1 h2 h3), n + 1, b, r, hn, hb, _ => by
    rw [jsonSteps, elemSteps] at hn
    obtain ⟨n, rfl⟩ : ∃ k, n = k + 1 := ⟨n - 1, by omega⟩
    have hx := readValue_complete h2 (n + 1) [] (a ++ ']' :: r) (by omega) (fun _ h => by cases h) (blank_numEnd h3 (end_close _ _ (by simp)))
    obtain ⟨c, t', rfl, hs, hc⟩ := jText_head h2
    rw [readValue.eq_def]; simp only
    rw [List.cons_append, skipSpace_blank hb _ _ (by decide)]
    simp only [show ¬ ('[' : Char) = '"' by decide, if_false, if_true, List.append_assoc, List.cons_append, List.nil_append] at hx ⊢
    rw [skipSpace_blank h1 _ _ hs]
    simp only [hc, if_false, hx]
    rw [readElems.eq_def]; simp only
    rw [skipSpace_blank h3 _ _ (by decide)]
    rfl
  | _, _, .arr (.more (x := x) (xs := xs) (b := b1) (t := t) (a := a) (u := u) h1 h2 h3 h4), n + 1, b, r, hn, hb, _ => by
    rw [jsonSteps] at hn
    have hx := readValue_complete h2 n [] (a ++ ',' :: (u ++ ']' :: r)) (by omega) (fun _ h => by cases h) (blank_numEnd h3 (end_close _ _ (by simp)))
    have hxs := readElems_complete h4 n a r (by omega) h3
    obtain ⟨c, t', rfl, hs, hc⟩ := jText_head h2
    rw [readValue.eq_def]; simp only
    rw [List.cons_append, skipSpace_blank hb _ _ (by decide)]
    simp only [show ¬ ('[' : Char) = '"' by decide, if_false, if_true, List.append_assoc, List.cons_append, List.nil_append] at hx ⊢
    rw [skipSpace_blank h1 _ _ hs]
    simp only [hc, if_false, hx, hxs, Option.map_some]
  | _, _, .emptyObj (b := b') h, n + 1, b, r, _, hb, _ => by
    rw [readValue.eq_def]; simp only
    rw [List.cons_append, skipSpace_blank hb _ _ (by decide)]
    simp only [show ¬ ('{' : Char) = '"' by decide, show ¬ ('{' : Char) = '[' by decide, if_false, if_true, List.append_assoc,
      List.cons_append, List.nil_append]
    rw [skipSpace_blank h _ _ (by decide)]
    rfl
  | _, _, .obj (.one (k := k) (v := v) (.mk (kt := kt) (b1 := b1) (b2 := b2) (b3 := b3) (b4 := b4) (t := t) h1 h2 h3 h4 h5 h6)),
      n + 1, b, r, hn, hb, _ => by
    rw [jsonSteps, memberSteps] at hn
    obtain ⟨n, rfl⟩ : ∃ k, n = k + 1 := ⟨n - 1, by omega⟩
    have hv := readValue_complete h5 n b3 (b4 ++ '}' :: r) (by omega) h4 (blank_numEnd h6 (end_close _ _ (by simp)))
    rw [readValue.eq_def]; simp only
    rw [List.cons_append, skipSpace_blank hb _ _ (by decide)]
    simp only [show ¬ ('{' : Char) = '"' by decide, show ¬ ('{' : Char) = '[' by decide, if_false, if_true, List.append_assoc,
      List.cons_append, List.nil_append]
    rw [skipSpace_blank h1 _ _ (by decide)]
    simp only [show ¬ ('"' : Char) = '}' by decide, if_false]
    rw [readMember.eq_def]; simp only
    rw [show skipSpace ('"' :: (kt ++ '"' :: (b2 ++ ':' :: (b3 ++ (t ++ (b4 ++ '}' :: r)))))) = _ from
      skipSpace_blank (b := []) (fun _ h => by cases h) _ _ (by decide)]
    simp only [if_true]
    rw [(readJsonStr_iff _ k _).2 ⟨kt, rfl, h2⟩]
    simp only
    rw [skipSpace_blank h3 _ _ (by decide)]
    simp only [if_true, hv, Option.map_some]
    rw [readMembers.eq_def]; simp only
    rw [skipSpace_blank h6 _ _ (by decide)]
    rfl
  | _, _, .obj (.more (k := k) (v := v) (fs := fs) (u := u)
      (.mk (kt := kt) (b1 := b1) (b2 := b2) (b3 := b3) (b4 := b4) (t := t) h1 h2 h3 h4 h5 h6) h7),
      n + 1, b, r, hn, hb, _ => by
    rw [jsonSteps] at hn
    obtain ⟨n, rfl⟩ : ∃ k, n = k + 1 := ⟨n - 1, by omega⟩
    have hv := readValue_complete h5 n b3 (b4 ++ ',' :: (u ++ '}' :: r)) (by omega) h4 (blank_numEnd h6 (end_close _ _ (by simp)))
    have hfs := readMembers_complete h7 (n + 1) b4 r (by omega) h6
    rw [readValue.eq_def]; simp only
    rw [List.cons_append, skipSpace_blank hb _ _ (by decide)]
    simp only [show ¬ ('{' : Char) = '"' by decide, show ¬ ('{' : Char) = '[' by decide, if_false, if_true, List.append_assoc,
      List.cons_append, List.nil_append]
    rw [skipSpace_blank h1 _ _ (by decide)]
    simp only [show ¬ ('"' : Char) = '}' by decide, if_false]
    rw [readMember.eq_def]; simp only
    rw [show skipSpace ('"' :: (kt ++ '"' :: (b2 ++ ':' :: (b3 ++ (t ++ (b4 ++ ',' :: (u ++ '}' :: r))))))) = _ from
      skipSpace_blank (b := []) (fun _ h => by cases h) _ _ (by decide)]
    simp only [if_true]
    rw [(readJsonStr_iff _ k _).2 ⟨kt, rfl, h2⟩]
    simp only
    rw [skipSpace_blank h3 _ _ (by decide)]
    simp only [if_true, hv, hfs, Option.map_some]
/-- The same for the rest of an array. -/
theorem readElems_complete : ∀ {xs : List Json} {u : Str}, JElems xs u → ∀ (n : Nat) (a r : Str), elemSteps xs ≤ n → Blank a →
    readElems n (a ++ ',' :: (u ++ ']' :: r)) = some (xs, r)
  | xs, _, h, 0, _, _, hn, _ => by cases h <;> (rw [elemSteps] at hn; omega)
  | _, _, .one (x := x) (b := b1) (t := t) (a := a1) h1 h2 h3, n + 1, a, r, hn, ha => by
    rw [elemSteps, elemSteps] at hn
    obtain ⟨n, rfl⟩ : ∃ k, n = k + 1 := ⟨n - 1, by omega⟩
    have hx := readValue_complete h2 (n + 1) b1 (a1 ++ ']' :: r) (by omega) h1 (blank_numEnd h3 (end_close _ _ (by simp)))
    rw [readElems.eq_def]; simp only
    rw [skipSpace_blank ha _ _ (by decide)]
    simp only [show ¬ (',' : Char) = ']' by decide, if_false, if_true, List.append_assoc, hx]
    rw [readElems.eq_def]; simp only
    rw [skipSpace_blank h3 _ _ (by decide)]
    rfl
  | _, _, .more (x := x) (xs := xs) (b := b1) (t := t) (a := a1) (u := u) h1 h2 h3 h4, n + 1, a, r, hn, ha => by
    rw [elemSteps] at hn
    have hx := readValue_complete h2 n b1 (a1 ++ ',' :: (u ++ ']' :: r)) (by omega) h1 (blank_numEnd h3 (end_close _ _ (by simp)))
    have hxs := readElems_complete h4 n a1 r (by omega) h3
    rw [readElems.eq_def]; simp only
    rw [skipSpace_blank ha _ _ (by decide)]
    simp only [show ¬ (',' : Char) = ']' by decide, if_false, if_true, List.append_assoc, List.cons_append, hx, hxs, Option.map_some]
/-- The same for the rest of an object. -/
theorem readMembers_complete : ∀ {fs : List (Str × Json)} {u : Str}, JMembers fs u → ∀ (n : Nat) (a r : Str), memberSteps fs ≤ n → Blank a →
    readMembers n (a ++ ',' :: (u ++ '}' :: r)) = some (fs, r)
  | fs, _, h, 0, _, _, hn, _ => by cases h <;> (rw [memberSteps] at hn; omega)
  | _, _, .one (k := k) (v := v) (.mk (kt := kt) (b1 := b1) (b2 := b2) (b3 := b3) (b4 := b4) (t := t) h1 h2 h3 h4 h5 h6),
      n + 1, a, r, hn, ha => by
    rw [memberSteps, memberSteps] at hn
    obtain ⟨n, rfl⟩ : ∃ k, n = k + 1 := ⟨n - 1, by omega⟩
    have hv := readValue_complete h5 n b3 (b4 ++ '}' :: r) (by omega) h4 (blank_numEnd h6 (end_close _ _ (by simp)))
    rw [readMembers.eq_def]; simp only
    rw [skipSpace_blank ha _ _ (by decide)]
    simp only [show ¬ (',' : Char) = '}' by decide, if_false, if_true, List.append_assoc, List.cons_append]
    rw [readMember.eq_def]; simp only
    rw [skipSpace_blank h1 _ _ (by decide)]
    simp only [if_true]
    rw [(readJsonStr_iff _ k _).2 ⟨kt, rfl, h2⟩]
    simp only
    rw [skipSpace_blank h3 _ _ (by decide)]
    simp only [if_true, hv, Option.map_some]
    rw [readMembers.eq_def]; simp only
    rw [skipSpace_blank h6 _ _ (by decide)]
    rfl
  | _, _, .more (k := k) (v := v) (fs := fs) (u := u)
      (.mk (kt := kt) (b1 := b1) (b2 := b2) (b3 := b3) (b4 := b4) (t := t) h1 h2 h3 h4 h5 h6) h7, n + 1, a, r, hn, ha => by
    rw [memberSteps] at hn
    obtain ⟨n, rfl⟩ : ∃ k, n = k + 1 := ⟨n - 1, by omega⟩
    have hv := readValue_complete h5 n b3 (b4 ++ ',' :: (u ++ '}' :: r)) (by omega) h4 (blank_numEnd h6 (end_close _ _ (by simp)))
    have hfs := readMembers_complete h7 (n + 1) b4 r (by omega) h6
    rw [readMembers.eq_def]; simp only
    rw [skipSpace_blank ha _ _ (by decide)]
    simp only [show ¬ (',' : Char) = '}' by decide, if_false, if_true, List.append_assoc, List.cons_append]
    rw [readMember.eq_def]; simp only
    rw [skipSpace_blank h1 _ _ (by decide)]
    simp only [if_true]
    rw [(readJsonStr_iff _ k _).2 ⟨kt, rfl, h2⟩]
    simp only
    rw [skipSpace_blank h3 _ _ (by decide)]
    simp only [if_true, hv, hfs, Option.map_some]
end

mutual
/-- A text is at least as long as reading it takes. -/
theorem jText_steps : ∀ {j : Json} {t : Str}, JText j t → jsonSteps j ≤ t.length
  | _, _, .null => by decide
  | _, _, .yes => by decide
  | _, _, .no => by decide
  | _, _, .num h => by
    obtain ⟨c, r, rfl, -⟩ := numText_head h
    simp [jsonSteps]
  | _, _, .str _ => by simp [jsonSteps]
  | _, _, .emptyArr _ => by simp [jsonSteps]
  | _, _, .arr h => by
    obtain ⟨x, xs, rfl, h1⟩ := jElems_steps h
    simp only [jsonSteps, List.length_cons, List.length_append, List.length_nil]
    omega
  | _, _, .emptyObj _ => by simp [jsonSteps]
  | _, _, .obj h => by
    obtain ⟨k, v, fs, rfl, h1⟩ := jMembers_steps h
    simp only [jsonSteps, List.length_cons, List.length_append, List.length_nil]
    omega
theorem jElems_steps : ∀ {xs : List Json} {t : Str}, JElems xs t → ∃ y ys, xs = y :: ys ∧ jsonSteps y + elemSteps ys ≤ t.length + 1
  | _, _, .one (x := x) _ h _ => by
    have := jText_steps h
    refine ⟨x, [], rfl, ?_⟩
    simp only [elemSteps, List.length_append]
    omega
  | _, _, .more (x := x) (xs := xs) _ h _ h' => by
    have := jText_steps h
    obtain ⟨y, ys, rfl, h2⟩ := jElems_steps h'
    refine ⟨x, y :: ys, rfl, ?_⟩
    simp only [elemSteps, List.length_append, List.length_cons]
    omega
theorem jMembers_steps : ∀ {fs : List (Str × Json)} {t : Str}, JMembers fs t →
    ∃ k v gs, fs = (k, v) :: gs ∧ jsonSteps v + memberSteps gs ≤ t.length
  | _, _, .one (k := k) (v := v) (.mk _ _ _ _ h _) => by
    have := jText_steps h
    refine ⟨k, v, [], rfl, ?_⟩
    simp only [memberSteps, List.length_append, List.length_cons]
    omega
  | _, _, .more (k := k) (v := v) (.mk _ _ _ _ h _) h' => by
    have := jText_steps h
    obtain ⟨k', y, ys, rfl, h2⟩ := jMembers_steps h'
    refine ⟨k, v, (k', y) :: ys, rfl, ?_⟩
    simp only [memberSteps, List.length_append, List.length_cons]
    omega
end

end LogCache
