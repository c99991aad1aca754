import Verif.Model.Semver
import Verif.Spec.Semver
import Verif.Proof.SyslogParse
import Verif.Proof.Door

/-! # `semver.Parse` reads exactly the semantic versions -/

namespace LogCache
open Spec

theorem semverCut_iff (c : Char) (s a b : Str) : semverCut c s = some (a, b) ↔ s = a ++ c :: b ∧ c ∉ a := by
  induction s generalizing a with
  | nil => simp [semverCut]
  | cons x s ih =>
    rw [semverCut]
    by_cases hx : x = c
    · subst hx
      rw [if_pos rfl]
      constructor
      · intro h; injection h with h; injection h with h1 h2; subst h1; subst h2; exact ⟨rfl, List.not_mem_nil⟩
      · rintro ⟨h, hn⟩
        cases a with
        | nil => injection h with _ h; rw [h]
        | cons y a => injection h with h _; exact absurd (h ▸ List.mem_cons_self ..) hn
    · rw [if_neg hx]
      constructor
      · intro h
        obtain ⟨⟨a', b'⟩, hp, he⟩ := Option.map_eq_some_iff.1 h
        injection he with h1 h2
        subst h1; subst h2
        obtain ⟨rfl, hn⟩ := (ih _).1 hp
        refine ⟨rfl, ?_⟩
        intro hm
        rcases List.mem_cons.1 hm with h | h
        · exact hx h.symm
        · exact hn h
      · rintro ⟨h, hn⟩
        cases a with
        | nil => injection h with h _; exact absurd h hx
        | cons y a =>
          injection h with h1 h2
          subst h1
          rw [(ih a).2 ⟨h2, fun hm => hn (List.mem_cons_of_mem _ hm)⟩]
          rfl

theorem semverCut_none {c : Char} {s : Str} (h : c ∉ s) : semverCut c s = none := by
  rcases hc : semverCut c s with _ | ⟨a, b⟩
  · rfl
  · obtain ⟨rfl, -⟩ := (semverCut_iff c s a b).1 hc
    exact absurd (by simp) h

theorem semverCut_free {c : Char} {s : Str} (h : semverCut c s = none) : c ∉ s := by
  induction s with
  | nil => exact List.not_mem_nil
  | cons x s ih =>
    rw [semverCut] at h
    by_cases hx : x = c
    · rw [if_pos hx] at h; cases h
    · rw [if_neg hx, Option.map_eq_none_iff] at h
      intro hm
      rcases List.mem_cons.1 hm with hm | hm
      · exact hx hm.symm
      · exact ih h hm

theorem semverNumber_iff (s : Str) (n : Nat) : semverNumber s = some n ↔ s = dec n ∧ n < 2 ^ 64 := by
  have hcan : ∀ s : Str, (∀ x r, s = '0' :: x :: r → False) → s ≠ [] → s.length = 1 ∨ s.head? ≠ some '0' := by
    intro s h hne
    cases s with
    | nil => exact absurd rfl hne
    | cons x r =>
      cases r with
      | nil => exact .inl rfl
      | cons y r =>
        refine .inr fun he => ?_
        injection he with he
        exact h y r (by rw [he])
  unfold semverNumber
  split
  · rename_i x r
    constructor
    · intro h; cases h
    · rintro ⟨h, -⟩
      rcases dec_canon n with h1 | h1
      · rw [← h] at h1; simp at h1
      · rw [← h] at h1; exact absurd rfl h1
  · rename_i hs
    rw [parseUint64_iff]
    constructor
    · rintro ⟨hn, hlt⟩
      exact ⟨(numeral_canon hn (hcan s (fun x r he => hs x r he) (numeral_ne hn))), hlt⟩
    · rintro ⟨rfl, hlt⟩
      exact ⟨numeral_dec n, hlt⟩

theorem isDecimal_range (c : Char) : isDecimal c = true ↔ '0' ≤ c ∧ c ≤ '9' := by
  have h0 : '0' ≤ c ↔ '0'.toNat ≤ c.toNat := Iff.rfl
  have h9 : c ≤ '9' ↔ c.toNat ≤ '9'.toNat := Iff.rfl
  unfold isDecimal digitVal
  rw [h0, h9]
  split <;> simp_all

theorem dec_decimal (n : Nat) : ∀ c ∈ dec n, '0' ≤ c ∧ c ≤ '9' := by
  intro c hc
  obtain ⟨d, hd, rfl⟩ := numeral_head (numeral_dec n) c hc
  have : ∀ d : Fin 10, '0' ≤ decDigit d.val ∧ decDigit d.val ≤ '9' := by decide
  exact this ⟨d, hd⟩

theorem dec_free (n : Nat) {c : Char} (hc : ¬('0' ≤ c ∧ c ≤ '9')) : c ∉ dec n := fun h => hc (dec_decimal n c h)

theorem semverChar_iff (c : Char) : semverChar c = true ↔
    ('a' ≤ c ∧ c ≤ 'z') ∨ ('A' ≤ c ∧ c ≤ 'Z') ∨ ('0' ≤ c ∧ c ≤ '9') ∨ c = '-' := by
  unfold semverChar
  simp only [Bool.or_eq_true, Bool.and_eq_true, decide_eq_true_eq, isDecimal_range, or_assoc]

theorem semverBuild_iff (w : Str) : semverBuild w = true ↔ VersionWord w := by
  unfold semverBuild VersionWord
  rw [Bool.and_eq_true, List.all_eq_true]
  refine and_congr ?_ (forall_congr' fun c => forall_congr' fun _ => semverChar_iff c)
  cases w <;> simp

theorem semverPre_iff (w : Str) : semverPre w = true ↔ PreReleaseWord w := by
  unfold semverPre PreReleaseWord
  by_cases ha : w.all isDecimal = true
  · rw [if_pos ha, Option.isSome_iff_exists]
    have hd : ∀ c ∈ w, '0' ≤ c ∧ c ≤ '9' := fun c hc => (isDecimal_range c).1 (List.all_eq_true.1 ha c hc)
    constructor
    · rintro ⟨n, hn⟩
      obtain ⟨h1, h2⟩ := (semverNumber_iff _ _).1 hn
      exact .inl ⟨n, h2, h1⟩
    · rintro (⟨n, h1, h2⟩ | ⟨-, c, hc, hn⟩)
      · exact ⟨n, (semverNumber_iff _ _).2 ⟨h2, h1⟩⟩
      · exact absurd (hd c hc) hn
  · rw [if_neg ha]
    have hex : ∃ c ∈ w, ¬('0' ≤ c ∧ c ≤ '9') := Classical.byContradiction fun hno => ha <| by
      rw [List.all_eq_true]
      intro c hc
      rw [isDecimal_range]
      exact Classical.byContradiction fun h => hno ⟨c, hc, h⟩
    constructor
    · intro h
      refine .inr ⟨⟨?_, fun c hc => (semverChar_iff c).1 (List.all_eq_true.1 h c hc)⟩, hex⟩
      obtain ⟨c, hc, -⟩ := hex
      exact List.ne_nil_of_mem hc
    · rintro (⟨n, -, rfl⟩ | ⟨⟨-, h⟩, -⟩)
      · obtain ⟨c, hc, hn⟩ := hex
        exact absurd (dec_decimal n c hc) hn
      · rw [List.all_eq_true]
        exact fun c hc => (semverChar_iff c).2 (h c hc)

theorem dotted_join (ws : List Str) : dotted ws = joinBy '.' ws := by
  induction ws with
  | nil => rfl
  | cons w ws ih =>
    cases ws with
    | nil => rfl
    | cons x xs => rw [dotted, joinBy, ih]; simp

theorem word_chars {w : Str} (h : VersionWord w) : ∀ c ∈ w, c ≠ '.' ∧ c ≠ '+' := by
  intro c hc
  rcases h.2 c hc with ⟨h1, h2⟩ | ⟨h1, h2⟩ | ⟨h1, h2⟩ | rfl
  · constructor <;> (rintro rfl; revert h1; decide)
  · constructor <;> (rintro rfl; revert h1; decide)
  · constructor
    · rintro rfl; revert h1; decide
    · rintro rfl; revert h1; decide
  · decide

theorem pre_chars {w : Str} (h : PreReleaseWord w) : ∀ c ∈ w, c ≠ '.' ∧ c ≠ '+' := by
  rcases h with ⟨n, -, rfl⟩ | ⟨h, -⟩
  · intro c hc
    constructor
    · rintro rfl; exact dec_free n (by decide) hc
    · rintro rfl; exact dec_free n (by decide) hc
  · exact word_chars h

theorem mem_dotted {ws : List Str} {c : Char} (h : c ∈ dotted ws) : c = '.' ∨ ∃ w ∈ ws, c ∈ w := by
  induction ws with
  | nil => cases h
  | cons w ws ih =>
    cases ws with
    | nil => exact .inr ⟨w, List.mem_cons_self .., h⟩
    | cons x xs =>
      rw [dotted] at h
      · rcases List.mem_append.1 h with h | h
        · exact .inr ⟨w, List.mem_cons_self .., h⟩
        · rcases List.mem_cons.1 h with h | h
          · exact .inl h
          · rcases ih h with h | ⟨y, hy, hc⟩
            · exact .inl h
            · exact .inr ⟨y, List.mem_cons_of_mem _ hy, hc⟩
      · simp

/-- What the tail after a sign is: nothing, or the sign and words. -/
theorem semverTail_some {c : Char} {s a : Str} {ws : List Str} (h : semverTail c s = (a, ws)) :
    c ∉ a ∧ s = a ++ (if ws = [] then [] else c :: dotted ws) := by
  unfold semverTail at h
  rcases hc : semverCut c s with _ | ⟨x, y⟩
  · rw [hc] at h
    injection h with h1 h2
    subst h1; subst h2
    exact ⟨semverCut_free hc, by simp⟩
  · rw [hc] at h
    injection h with h1 h2
    obtain ⟨h3, h4⟩ := (semverCut_iff _ _ _ _).1 hc
    subst h1
    refine ⟨h4, ?_⟩
    rw [← h2, if_neg (splitOn_ne_nil _ _), dotted_join, joinBy_split]
    exact h3

theorem semverTail_of {c : Char} {a : Str} {ws : List Str} (ha : c ∉ a) (hw : ∀ w ∈ ws, '.' ∉ w) :
    semverTail c (a ++ (if ws = [] then [] else c :: dotted ws)) = (a, ws) := by
  unfold semverTail
  by_cases h : ws = []
  · subst h
    rw [if_pos rfl, List.append_nil, semverCut_none ha]
  · rw [if_neg h, (semverCut_iff c _ a (dotted ws)).2 ⟨rfl, ha⟩]
    simp only
    rw [dotted_join, splitOn_joinBy ws h hw]

theorem semverParse_iff (s : Str) (v : Semver) : semverParse s = some v ↔ IsVersion s v := by
  constructor
  · intro h
    unfold semverParse at h
    rcases h1 : semverCut '.' s with _ | ⟨a, s1⟩
    · rw [h1] at h; cases h
    rw [h1] at h
    simp only at h
    rcases h2 : semverCut '.' s1 with _ | ⟨b, s2⟩
    · rw [h2] at h; cases h
    rw [h2] at h
    simp only at h
    rcases h3 : semverTail '+' s2 with ⟨s3, build⟩
    rw [h3] at h
    simp only at h
    rcases h4 : semverTail '-' s3 with ⟨c, pre⟩
    rw [h4] at h
    simp only at h
    cases e1 : semverNumber a with
    | none => rw [e1] at h; cases h
    | some na =>
      cases e2 : semverNumber b with
      | none => rw [e1, e2] at h; cases h
      | some nb =>
        cases e3 : semverNumber c with
        | none => rw [e1, e2, e3] at h; cases h
        | some nc =>
          rw [e1, e2, e3] at h
          simp only at h
          by_cases hok : (pre.all semverPre && build.all semverBuild) = true
          · rw [if_pos hok] at h
            injection h with h
            subst h
            rw [Bool.and_eq_true, List.all_eq_true, List.all_eq_true] at hok
            obtain ⟨a1, a2⟩ := (semverNumber_iff _ _).1 e1
            obtain ⟨b1, b2⟩ := (semverNumber_iff _ _).1 e2
            obtain ⟨c1, c2⟩ := (semverNumber_iff _ _).1 e3
            refine ⟨a2, b2, c2, pre, build, fun w hw => (semverPre_iff w).1 (hok.1 w hw),
              fun w hw => (semverBuild_iff w).1 (hok.2 w hw), ?_, ?_⟩
            · cases pre <;> simp
            · rw [((semverCut_iff _ _ _ _).1 h1).1, ((semverCut_iff _ _ _ _).1 h2).1, (semverTail_some h3).2,
                (semverTail_some h4).2, a1, b1, c1, List.append_assoc]
          · rw [if_neg hok] at h; cases h
  · rintro ⟨h1, h2, h3, pre, build, hp, hb, hv, rfl⟩
    have t1 : semverTail '+' (dec v.patch ++ ((if pre = [] then [] else '-' :: dotted pre) ++
        (if build = [] then [] else '+' :: dotted build))) =
        (dec v.patch ++ (if pre = [] then [] else '-' :: dotted pre), build) := by
      rw [← List.append_assoc]
      refine semverTail_of ?_ fun w hw hd => (word_chars (hb w hw) _ hd).1 rfl
      intro hm
      rcases List.mem_append.1 hm with hm | hm
      · exact dec_free _ (by decide) hm
      · by_cases hpre : pre = []
        · rw [if_pos hpre] at hm; cases hm
        · rw [if_neg hpre] at hm
          rcases List.mem_cons.1 hm with hm | hm
          · revert hm; decide
          · rcases mem_dotted hm with hm | ⟨w, hw, hc⟩
            · revert hm; decide
            · exact (pre_chars (hp w hw) _ hc).2 rfl
    have t2 : semverTail '-' (dec v.patch ++ (if pre = [] then [] else '-' :: dotted pre)) = (dec v.patch, pre) :=
      semverTail_of (dec_free _ (by decide)) fun w hw hd => (pre_chars (hp w hw) _ hd).1 rfl
    unfold semverParse
    rw [(semverCut_iff '.' _ (dec v.major) _).2 ⟨rfl, dec_free _ (by decide)⟩]
    simp only
    rw [(semverCut_iff '.' _ (dec v.minor) _).2 ⟨rfl, dec_free _ (by decide)⟩]
    simp only
    rw [t1]
    simp only
    rw [t2, (semverNumber_iff _ _).2 ⟨rfl, h1⟩, (semverNumber_iff _ _).2 ⟨rfl, h2⟩, (semverNumber_iff _ _).2 ⟨rfl, h3⟩]
    simp only
    rw [if_pos]
    · obtain ⟨a, b, c, p⟩ := v
      simp only at hv ⊢
      congr
      cases p <;> cases pre <;> simp_all
    · rw [Bool.and_eq_true, List.all_eq_true, List.all_eq_true]
      exact ⟨fun w hw => (semverPre_iff w).2 (hp w hw), fun w hw => (semverBuild_iff w).2 (hb w hw)⟩

end LogCache
