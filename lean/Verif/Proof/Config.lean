import Verif.Proof.WhiteSpace
import Verif.Proof.Duration
import Verif.Proof.Promql

/-! # Settings: lists and addresses -/

namespace LogCache
open Spec

theorem asciiLetter_iff (c : Char) : asciiLetter c = true ↔ letter c := by
  unfold asciiLetter letter
  simp only [Bool.or_eq_true, Bool.and_eq_true, decide_eq_true_eq]
  exact or_comm

theorem decimal_iff (c : Char) : isDecimal c = true ↔ digit c := by
  unfold isDecimal digitVal digit
  have : ('0'.toNat ≤ c.toNat ∧ c.toNat ≤ '9'.toNat) ↔ ('0' ≤ c ∧ c ≤ '9') := Iff.rfl
  split
  · rename_i h; simpa using this.1 h
  · rename_i h; simpa using fun h1 => fun h2 => h (this.2 ⟨h1, h2⟩)

/-- A scheme, as the parser reads it. -/
theorem schemeText_iff {t : Str} (h : SchemeText t) : (∃ c cs, t = c :: cs ∧ asciiLetter c = true) ∧
    ∀ c ∈ t, asciiLetter c = true ∨ (isDecimal c || c = '+' || c = '-' || c = '.') = true := by
  refine ⟨?_, ?_⟩
  · obtain ⟨c, cs, e, hc⟩ := h.1
    exact ⟨c, cs, e, (asciiLetter_iff c).2 hc⟩
  · intro c hc
    rcases h.2 c hc with h | h | h | h | h
    · exact .inl ((asciiLetter_iff c).2 h)
    · simp [(decimal_iff c).2 h]
    all_goals simp [h]

/-! ## Lists -/

theorem dropWhile_blank {f : Char → Bool} {l x : Str} (hl : ∀ c ∈ l, f c = true) :
    (l ++ x).dropWhile f = x.dropWhile f := by
  induction l with
  | nil => rfl
  | cons c cs ih =>
    rw [List.cons_append, List.dropWhile, hl c (by simp)]
    exact ih (fun c' hc' => hl c' (List.mem_cons_of_mem _ hc'))

theorem dropWhile_first {f : Char → Bool} {x : Str} (h : ∀ c, x.head? = some c → f c = false) : x.dropWhile f = x := by
  cases x with
  | nil => rfl
  | cons c cs => rw [List.dropWhile, h c rfl]

theorem trim_padded {s x : Str} (h : Padded s x) (hx : NoEdgeSpace x) : trimSpace s = x := by
  obtain ⟨l, r, hl, hr, rfl⟩ := h
  rw [trimSpace, goIsSpace_eq]
  unfold trimWith
  by_cases hnil : x = []
  · subst hnil
    have : (l ++ [] ++ r).dropWhile whiteSpace = [] := by
      rw [List.append_nil, dropWhile_blank hl]
      have := dropWhile_blank (x := []) hr
      rw [List.append_nil] at this
      rw [this]; rfl
    rw [this]; rfl
  · rw [List.append_assoc, dropWhile_blank hl]
    have h1 : (x ++ r).dropWhile whiteSpace = x ++ r := by
      apply dropWhile_first
      intro c hc
      cases x with
      | nil => exact absurd rfl hnil
      | cons a as => exact hx.1 c hc
    rw [h1, List.reverse_append, dropWhile_blank (by intro c hc; exact hr c (by simpa using hc)), dropWhile_first,
      List.reverse_reverse]
    intro c hc
    rw [List.head?_reverse] at hc
    exact hx.2 c hc

theorem dropWhile_suffix (f : Char → Bool) (s : Str) : ∃ l, (∀ c ∈ l, f c = true) ∧ s = l ++ s.dropWhile f := by
  refine ⟨s.takeWhile f, ?_, (List.takeWhile_append_dropWhile).symm⟩
  intro c hc
  have h := List.all_takeWhile (p := f) (l := s)
  exact List.all_eq_true.1 h c hc

theorem trim_is (s : Str) : Padded s (trimSpace s) ∧ NoEdgeSpace (trimSpace s) := by
  rw [trimSpace, goIsSpace_eq]
  unfold trimWith
  obtain ⟨l, hl, hs⟩ := dropWhile_suffix whiteSpace s
  obtain ⟨r, hr, hs2⟩ := dropWhile_suffix whiteSpace (s.dropWhile whiteSpace).reverse
  generalize hd : (s.dropWhile whiteSpace).reverse.dropWhile whiteSpace = y at *
  have hmid : s.dropWhile whiteSpace = y.reverse ++ r.reverse := by
    rw [← List.reverse_append, ← hs2, List.reverse_reverse]
  refine ⟨⟨l, r.reverse, hl, fun c hc => hr c (by simpa using hc), ?_⟩, ?_, ?_⟩
  · rw [List.append_assoc, ← hmid]; exact hs
  · intro c hc
    have hc2 : (s.dropWhile whiteSpace).head? = some c := by
      rw [hmid, List.head?_append, hc]; rfl
    have := List.head?_dropWhile_not whiteSpace s
    rw [hc2] at this
    simpa using this
  · intro c hc
    rw [List.getLast?_reverse] at hc
    have := List.head?_dropWhile_not whiteSpace (s.dropWhile whiteSpace).reverse
    rw [hd, hc] at this
    simpa using this

theorem comma_not_blank {l : Str} (h : BlankText l) : ',' ∉ l := by
  intro hm
  exact absurd (h _ hm) (by decide)

theorem padded_free {s x : Str} (h : Padded s x) (hx : ',' ∉ x) : ',' ∉ s := by
  obtain ⟨l, r, hl, hr, rfl⟩ := h
  have := comma_not_blank hl
  have := comma_not_blank hr
  simp_all

theorem mem_trim {s : Str} {c : Char} (h : c ∈ trimSpace s) : c ∈ s := by
  obtain ⟨l, r, -, -, hs⟩ := (trim_is s).1
  rw [hs]; simp [h]

theorem split_first (s : Str) : ',' ∉ s ∨ ∃ a b, s = a ++ ',' :: b ∧ ',' ∉ a := by
  induction s with
  | nil => left; simp
  | cons c cs ih =>
    by_cases hc : c = ','
    · right; exact ⟨[], cs, by rw [hc]; rfl, by simp⟩
    · rcases ih with h | ⟨a, b, h1, h2⟩
      · left; simp [h, Ne.symm hc]
      · right; exact ⟨c :: a, b, by rw [h1]; rfl, by simp [h2, Ne.symm hc]⟩

theorem listItems_iff (s : Str) (xs : List Str) : listItems s = xs ↔ ListText s xs := by
  constructor
  · rintro rfl
    have key : ∀ k (s : Str), s.length ≤ k → ListText s (listItems s) := by
      intro k
      induction k with
      | zero =>
        intro s hs
        have : s = [] := List.eq_nil_of_length_eq_zero (by omega)
        subst this
        exact .one (trim_is []).1 (trim_is []).2 (fun h => by simpa using mem_trim h)
      | succ k ih =>
        intro s hs
        rcases split_first s with h | ⟨a, b, rfl, ha⟩
        · unfold listItems
          rw [splitOn_free h]
          exact .one (trim_is s).1 (trim_is s).2 (fun hm => h (mem_trim hm))
        · unfold listItems
          rw [splitOn_append, splitOn_free ha]
          simp only [List.length_append, List.length_cons] at hs
          exact .more (trim_is a).1 (trim_is a).2 (fun hm => ha (mem_trim hm)) (ih b (by omega))
    exact key _ s (Nat.le_refl _)
  · intro h
    induction h with
    | one hp hx hc =>
      unfold listItems
      rw [splitOn_free (padded_free hp hc)]
      simp [trim_padded hp hx]
    | more hp hx hc _ ih =>
      unfold listItems at ih ⊢
      rw [splitOn_append, splitOn_free (padded_free hp hc)]
      simp [trim_padded hp hx, ih]

/-! ## Settings -/

theorem readSetting_sound {k : SettingKind} {t : Str} {v : SettingVal}
    (hd : k = .duration → (∃ q n, GoDurationText t q n) →
      ∃ q n, GoDurationText t q n ∧ |q| + 2 * n < 2 ^ 63) (h : readSetting k t = some v) :
    TextMeans k t v := by
  cases k with
  | text => simp only [readSetting, Option.some.injEq] at h; exact h.symm
  | bool =>
    simp only [readSetting, Option.some.injEq] at h
    by_cases hb : t = "true".toList ∨ t = "1".toList
    · left; exact ⟨hb, by rw [← h, decide_eq_true hb]⟩
    · right; exact ⟨fun e => hb (.inl e), fun e => hb (.inr e), by rw [← h, decide_eq_false hb]⟩
  | int =>
    obtain ⟨n, hn, rfl⟩ := Option.map_eq_some_iff.1 h
    exact ⟨n, (parseInt64_iff _ _).1 hn, rfl⟩
  | uint =>
    obtain ⟨n, hn, rfl⟩ := Option.map_eq_some_iff.1 h
    exact ⟨n, (parseUint64_iff _ _).1 hn, rfl⟩
  | duration =>
    obtain ⟨d, hdur, rfl⟩ := Option.map_eq_some_iff.1 h
    obtain ⟨q, n, ht, hq⟩ := hd rfl (goDuration_sound hdur)
    obtain ⟨d', hd', hv⟩ := goDuration_text ht hq
    rw [hdur] at hd'
    injection hd' with hd'
    subst hd'
    exact ⟨d, rfl, q, n, ht, hv⟩
  | list =>
    simp only [readSetting, Option.some.injEq] at h
    exact ⟨_, (listItems_iff _ _).1 rfl, h.symm⟩

theorem readSetting_complete {k : SettingKind} {t : Str} {v : SettingVal}
    (hd : k = .duration → (∃ q n, GoDurationText t q n) →
      ∃ q n, GoDurationText t q n ∧ |q| + 2 * n < 2 ^ 63) (h : TextMeans k t v) :
    ∃ v', readSetting k t = some v' := by
  cases k with
  | text => exact ⟨_, rfl⟩
  | bool => exact ⟨_, rfl⟩
  | int =>
    obtain ⟨n, hn, rfl⟩ := h
    exact ⟨.int n, by simp only [readSetting, (parseInt64_iff _ _).2 hn]; rfl⟩
  | uint =>
    obtain ⟨n, hn, rfl⟩ := h
    exact ⟨.uint n, by simp only [readSetting, (parseUint64_iff _ _).2 hn]; rfl⟩
  | duration =>
    obtain ⟨d, rfl, q, n, ht, -⟩ := h
    obtain ⟨q', n', ht', hq⟩ := hd rfl ⟨q, n, ht⟩
    obtain ⟨d', hd', -⟩ := goDuration_text ht' hq
    exact ⟨.duration d', by simp only [readSetting, hd']; rfl⟩
  | list => exact ⟨_, rfl⟩

theorem loadSettings_forall {env : Str → Str} {ss : List Setting} {vs : List SettingVal} :
    loadSettings env ss = some vs ↔ List.Forall₂ (fun s v => loadSetting env s = some v) ss vs := by
  induction ss generalizing vs with
  | nil =>
    simp only [loadSettings, Option.some.injEq]
    constructor
    · rintro rfl; exact .nil
    · intro h; cases h; rfl
  | cons s ss ih =>
    rw [loadSettings]
    constructor
    · intro h
      cases h1 : loadSetting env s with
      | none => rw [h1] at h; cases h
      | some v =>
        cases h2 : loadSettings env ss with
        | none => rw [h1, h2] at h; cases h
        | some ws =>
          rw [h1, h2] at h
          simp only [Option.some.injEq] at h
          subst h
          exact .cons h1 (ih.1 h2)
    · intro h
      cases h with
      | cons h1 h2 => rw [h1, ih.2 h2]

/-! ## Addresses -/

/-- A URL scheme. -/
theorem urlScheme_name {all : Str} {t r : Str} : ∀ {first : Bool} {seen : Str},
    (first = true → ∃ c cs, t = c :: cs ∧ asciiLetter c = true) →
    (∀ c ∈ t, asciiLetter c = true ∨ (isDecimal c || c = '+' || c = '-' || c = '.') = true) →
    urlScheme all first seen (t ++ ':' :: r) = some (seen ++ t, r) ∨ (t = [] ∧ first = true) := by
  induction t with
  | nil =>
    intro first seen h1 _
    cases first with
    | true => obtain ⟨c, cs, h, -⟩ := h1 rfl; cases h
    | false => left; rw [List.nil_append, List.append_nil]; rfl
  | cons c cs ih =>
    intro first seen h1 h2
    left
    have step : urlScheme all false (seen ++ [c]) (cs ++ ':' :: r) = some (seen ++ c :: cs, r) := by
      rcases ih (first := false) (seen := seen ++ [c]) (by simp) (fun c' hc' => h2 c' (List.mem_cons_of_mem _ hc')) with h | ⟨-, h⟩
      · rw [h]; simp
      · cases h
    rw [List.cons_append, urlScheme]
    by_cases hl : asciiLetter c = true
    · rw [if_pos hl]; exact step
    · rw [if_neg hl]
      have hd := (h2 c (by simp)).resolve_left hl
      rw [if_pos hd]
      have hf : first = false := by
        cases first with
        | false => rfl
        | true => obtain ⟨c', cs', h, hc'⟩ := h1 rfl; injection h with h; subst h; exact absurd hc' hl
      rw [hf]; exact step

/-- Without a colon before the first character that no scheme has, there is no scheme. -/
theorem urlScheme_none {all : Str} {t : Str} : ∀ {first : Bool} {seen : Str},
    ':' ∉ t.takeWhile (· ≠ '/') → urlScheme all first seen t = some ([], all) := by
  induction t with
  | nil => intro first seen _; rfl
  | cons c cs ih =>
    intro first seen h
    rw [urlScheme]
    by_cases hs : c = '/'
    · subst hs; rfl
    · rw [List.takeWhile_cons_of_pos (by simpa using hs)] at h
      have hc : c ≠ ':' := fun e => h (by rw [e]; simp)
      have h' : ':' ∉ cs.takeWhile (· ≠ '/') := fun hm => h (List.mem_cons_of_mem _ hm)
      split
      · exact ih h'
      · split
        · split
          · rfl
          · exact ih h'
        · first | rfl | rw [if_neg hc]

/-- Hosts have good ports. -/
theorem host_port {h : Str} (hh : HostText h) : portOk h = true ∧ h ≠ [] ∧ '/' ∉ h := by
  obtain ⟨name, hne, hc, hs, rfl | ⟨port, hp, hd, rfl⟩⟩ := hh
  · refine ⟨?_, hne, hs⟩
    unfold portOk
    have : h.contains ':' = false := by simpa using hc
    rw [this]
  · refine ⟨?_, by simp, ?_⟩
    · unfold portOk
      have h1 : (name ++ ':' :: port).contains ':' = true := by simp
      rw [h1]
      show List.all _ isDecimal = true
      rw [List.reverse_append, List.reverse_cons, List.append_assoc]
      rw [List.takeWhile_append_of_pos]
      · simp only [List.singleton_append]
        rw [List.takeWhile_cons_of_neg (by simp), List.append_nil, List.all_eq_true]
        intro c hm
        exact (decimal_iff c).2 (hd c (by simpa using hm))
      · intro c hm
        have := hd c (by simpa using hm)
        have : c ≠ ':' := by rintro rfl; exact absurd this (by decide)
        simpa using this
    · simp only [List.mem_append, List.mem_cons, not_or]
      refine ⟨hs, by decide, ?_⟩
      intro hm
      exact absurd (hd _ hm) (by decide)

theorem takeWhile_host {h p : Str} (hs : '/' ∉ h) (hp : p = [] ∨ ∃ r, p = '/' :: r) :
    (h ++ p).takeWhile (· ≠ '/') = h ∧ (h ++ p).dropWhile (· ≠ '/') = p := by
  have hpos : ∀ c ∈ h, (decide (c ≠ '/')) = true := by
    intro c hc
    have : c ≠ '/' := by rintro rfl; exact hs hc
    simpa using this
  rw [List.takeWhile_append_of_pos hpos, List.dropWhile_append_of_pos hpos]
  rcases hp with rfl | ⟨r, rfl⟩
  · simp
  · simp

/-- Complete URLs. -/
theorem urlParse_full {t h p : Str} (ht : SchemeText t) (hh : HostText h) (hp : p = [] ∨ ∃ r, p = '/' :: r) :
    urlParse (t ++ ':' :: '/' :: '/' :: (h ++ p)) = some { scheme := t.map lowerChar, host := h, path := p } := by
  obtain ⟨hok, hne, hs⟩ := host_port hh
  have hsch : urlScheme (t ++ ':' :: '/' :: '/' :: (h ++ p)) true [] (t ++ ':' :: '/' :: '/' :: (h ++ p)) =
      some (t, '/' :: '/' :: (h ++ p)) := by
    rcases urlScheme_name (all := t ++ ':' :: '/' :: '/' :: (h ++ p)) (t := t) (r := '/' :: '/' :: (h ++ p))
      (first := true) (seen := []) (fun _ => (schemeText_iff ht).1) (schemeText_iff ht).2 with h | ⟨h, -⟩
    · exact h
    · obtain ⟨c, cs, e, -⟩ := ht.1
      rw [h] at e; cases e
  have htne : t.map lowerChar ≠ [] := by
    obtain ⟨c, cs, e, -⟩ := ht.1
    rw [e]; simp
  unfold urlParse
  rw [hsch]
  simp only []
  rw [if_neg (by simp), if_neg (by simp), if_pos ⟨by simp, .inl htne⟩]
  obtain ⟨e1, e2⟩ := takeWhile_host hs hp
  have e0 : List.drop 2 ('/' :: '/' :: (h ++ p)) = h ++ p := rfl
  rw [e0, e1, e2, if_pos hok]

theorem https_scheme : SchemeText "https".toList :=
  ⟨⟨'h', "ttps".toList, rfl, by decide⟩, by decide⟩

end LogCache
