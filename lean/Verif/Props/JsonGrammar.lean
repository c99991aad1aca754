import Verif.Proof.JsonGrammar
import Verif.Props.JsonText

/-! # What is read as JSON (C76, C106) -/

namespace LogCache
open Spec

private theorem skip_all {a : Str} (h : Blank a) : skipSpace a = [] := by
  unfold skipSpace
  induction a with
  | nil => rfl
  | cons c a ih =>
    have hc : jsonSpace c = true := by
      unfold jsonSpace
      rcases h c (.head _) with rfl | rfl | rfl | rfl <;> decide
    rw [List.dropWhile_cons, if_pos hc]
    exact ih fun x hx => h x (.tail _ hx)

private theorem blank_is_end {a : Str} (h : Blank a) : NumEnd a := by
  cases a with
  | nil => trivial
  | cons c a => rcases h c (.head _) with rfl | rfl | rfl | rfl <;> exact ⟨by decide, by decide, by decide, by decide⟩

/-- `Unmarshal` accepts exactly the texts of the grammar of JSON, and gives the document
they are. -/
theorem C76_grammar (t : Str) (j : Json) : unmarshalJson t = some j ↔ JsonDoc j t := by
  unfold unmarshalJson JsonDoc
  constructor
  · intro h
    split at h
    · cases h
    · rename_i j' r hr
      split at h
      · rename_i he
        cases h
        obtain ⟨b, v, h1, h2, h3⟩ := readValue_sound hr
        obtain ⟨a, h4, h5⟩ := skipSpace_split r
        have : skipSpace r = [] := by simpa using he
        rw [this, List.append_nil] at h5
        subst h5
        exact ⟨b, v, r, h1, h2, h3, h4⟩
      · cases h
  · rintro ⟨b, v, a, rfl, hb, hv, ha⟩
    have := jText_steps hv
    rw [readValue_complete hv _ b a (by simp only [List.length_append]; omega) hb (blank_is_end ha)]
    simp [skip_all ha]

/-- The grammar is unambiguous. -/
theorem C76_unambiguous (t : Str) (j j' : Json) (h : JsonDoc j t) (h' : JsonDoc j' t) : j = j' := by
  rw [← C76_grammar] at h h'
  rw [h] at h'
  injection h'

/-- A decoder reads a document from the beginning of its input: if it accepts, the input
begins with that document, and it accepts every document after which no number can go on. -/
theorem C76_decoder (s : Str) (j : Json) :
    (decodeJson s = some j → ∃ b v r, s = b ++ (v ++ r) ∧ Blank b ∧ JText j v) ∧
    (∀ b v r, s = b ++ (v ++ r) → Blank b → JText j v →
      (∀ c r', r = c :: r' → ¬ ('0' ≤ c ∧ c ≤ '9') ∧ c ≠ '.' ∧ c ≠ 'e' ∧ c ≠ 'E') → decodeJson s = some j) := by
  unfold decodeJson
  constructor
  · intro h
    rw [Option.map_eq_some_iff] at h
    obtain ⟨⟨j', r⟩, h1, h2⟩ := h
    cases h2
    obtain ⟨b, v, h3⟩ := readValue_sound h1
    exact ⟨b, v, r, h3⟩
  · rintro b v r rfl hb hv hr
    have := jText_steps hv
    rw [readValue_complete hv _ b r (by simp only [List.length_append]; omega) hb]
    · rfl
    · cases r with
      | nil => trivial
      | cons c r =>
        obtain ⟨h1, h2⟩ := hr c r rfl
        refine ⟨?_, h2⟩
        cases hd : isDigit c with
        | false => rfl
        | true =>
          exfalso
          apply h1
          show '0'.toNat ≤ c.toNat ∧ c.toNat ≤ '9'.toNat
          unfold isDigit digitVal at hd
          split at hd
          · assumption
          · cases hd

/-! ## The information endpoint -/

private theorem plain_strText {v : Str} (h : PlainText v) : StrText v v := by
  induction v with
  | nil => exact .nil
  | cons c v ih =>
    obtain ⟨h1, h2, h3⟩ := h c (.head _)
    exact .plain h2 h3 h1 (ih fun x hx => h x (.tail _ hx))

private theorem plain_word (s : Str) (h : s.all (fun c => decide (32 ≤ c.toNat) && c ≠ '"' && c ≠ '\\') = true) : StrText s s := by
  apply plain_strText
  intro c hc
  have := List.all_eq_true.1 h c hc
  simpa [and_assoc] using this

private theorem blank_nil : Blank [] := fun _ h => by cases h

private theorem info_doc {v u : Str} (h : StrText v u) (n : Int) :
    JText (.obj [("version".toList, .str u), ("vm_uptime".toList, .str (formatInt n))])
      ('{' :: (('"' :: ("version".toList ++ '"' :: ':' :: ('"' :: (v ++ ['"']))) ++ ',' ::
        ('"' :: ("vm_uptime".toList ++ '"' :: ':' :: ('"' :: (formatInt n ++ ['"']))))) ++ ['}'])) := by
  have hn : StrText (formatInt n) (formatInt n) := by
    apply plain_strText
    intro c hc
    have := formatInt_chars n c hc
    have hp : ∀ x ∈ "-0123456789".toList, 32 ≤ x.toNat ∧ x ≠ '"' ∧ x ≠ '\\' := by decide
    exact hp c this
  have hk : StrText "version".toList "version".toList := plain_word _ (by decide)
  have hk' : StrText "vm_uptime".toList "vm_uptime".toList := plain_word _ (by decide)
  generalize "version".toList = k at *
  generalize "vm_uptime".toList = k' at *
  refine .obj (.more ?_ (.one ?_))
  · have := JMember.mk (b1 := []) (b2 := []) (b3 := []) (b4 := []) blank_nil hk blank_nil blank_nil (.str h) blank_nil
    simpa using this
  · have := JMember.mk (b1 := []) (b2 := []) (b3 := []) (b4 := []) blank_nil hk' blank_nil blank_nil (.str hn) blank_nil
    simpa using this

/-- The version the client reads is the meaning of the gateway's version as the inside of a
JSON string, for every version that is one; the uptime is right then. -/
theorem C106_meaning {v u : Str} (h : StrText v u) (n : Int) :
    decodeField "version" (infoText v n) = some u ∧ decodeField "vm_uptime" (infoText v n) = some (formatInt n) := by
  have key : decodeJson (infoText v n) = some (.obj [("version".toList, .str u), ("vm_uptime".toList, .str (formatInt n))]) := by
    refine (C76_decoder _ _).2 [] _ ['\n'] ?_ blank_nil (info_doc h n) ?_
    · unfold infoText
      simp [List.append_assoc]
    · rintro c r' he
      injection he with he _
      subst he
      decide
  unfold decodeField
  rw [key]
  constructor <;> rfl

/-- A version with a backslash. -/
example : StrText "a\\tb\\ud83d\\ude00\\u00e9".toList "a\tb😀é".toList := by
  refine .plain (by decide) (by decide) (by decide) (.escape (c := '\t') (by decide) (.plain (by decide) (by decide) (by decide) ?_))
  refine .pair (h := "d83d".toList) (l := "de00".toList) (n := 0xd83d) (m := 0xde00)
    ⟨_, _, _, _, 13, 8, 3, 13, rfl, by decide, by decide, by decide, by decide, rfl⟩ ⟨by decide, by decide⟩
    ⟨_, _, _, _, 13, 14, 0, 0, rfl, by decide, by decide, by decide, by decide, rfl⟩ ⟨by decide, by decide⟩ ?_
  exact .unit (h := "00e9".toList) (n := 0xe9) ⟨_, _, _, _, 0, 0, 14, 9, rfl, by decide, by decide, by decide, by decide, rfl⟩
    (by unfold HighHalf; decide) (by unfold LowHalf; decide) .nil

/-- The text of a field of the first document of an answer. -/
def Spec.AnswerField (k : Str) (t : Str) (x : Str) : Prop :=
  ∃ j, decodeJson t = some j ∧
    (j = .null ∧ x = [] ∨
      ∃ fs, j = .obj fs ∧
        ((∃ before after, fs = before ++ (k, .str x) :: after ∧ ∀ p ∈ after, p.1 ≠ k) ∨
         (x = [] ∧ ∃ before after, fs = before ++ (k, .null) :: after ∧ ∀ p ∈ after, p.1 ≠ k) ∨
         (x = [] ∧ ∀ p ∈ fs, p.1 ≠ k)))

private theorem lookup_none (fs : List (Str × Json)) (k : Str) : fs.lookup k = none ↔ ∀ p ∈ fs, p.1 ≠ k := by
  induction fs with
  | nil => simp [List.lookup]
  | cons p fs ih =>
    obtain ⟨a, v⟩ := p
    rw [List.lookup_cons]
    by_cases h : k = a
    · subst h
      simp
    · have : (k == a) = false := by simpa using h
      rw [this]
      simp only
      rw [ih]
      simp only [List.mem_cons, forall_eq_or_imp]
      exact ⟨fun h' => ⟨fun e => h e.symm, h'⟩, fun h' => h'.2⟩

private theorem lookup_some (fs : List (Str × Json)) (k : Str) (v : Json) :
    fs.lookup k = some v ↔ ∃ before after, fs = before ++ (k, v) :: after ∧ ∀ p ∈ before, p.1 ≠ k := by
  induction fs with
  | nil => simp [List.lookup]
  | cons p fs ih =>
    obtain ⟨a, w⟩ := p
    rw [List.lookup_cons]
    by_cases h : k = a
    · subst h
      simp only [beq_self_eq_true, Option.some.injEq]
      constructor
      · rintro rfl; exact ⟨[], fs, rfl, fun _ h => by cases h⟩
      · rintro ⟨before, after, he, hb⟩
        cases before with
        | nil => injection he with he _; injection he
        | cons q before =>
          injection he with he _
          subst he
          exact absurd rfl (hb _ (.head _))
    · have : (k == a) = false := by simpa using h
      rw [this]
      simp only
      rw [ih]
      constructor
      · rintro ⟨before, after, rfl, hb⟩
        refine ⟨(a, w) :: before, after, rfl, ?_⟩
        intro p hp
        rcases List.mem_cons.1 hp with rfl | hp
        · exact fun e => h e.symm
        · exact hb p hp
      · rintro ⟨before, after, he, hb⟩
        cases before with
        | nil => injection he with he _; injection he with he _; exact absurd he.symm h
        | cons q before =>
          injection he with he1 he2
          exact ⟨before, after, he2, fun p hp => hb p (.tail _ hp)⟩

private theorem last_some (fs : List (Str × Json)) (k : Str) (v : Json) :
    fs.reverse.lookup k = some v ↔ ∃ before after, fs = before ++ (k, v) :: after ∧ ∀ p ∈ after, p.1 ≠ k := by
  rw [lookup_some]
  constructor
  · rintro ⟨b, a, he, hb⟩
    have := congrArg List.reverse he
    rw [List.reverse_reverse] at this
    refine ⟨a.reverse, b.reverse, by rw [this]; simp, fun p hp => hb p (by simpa using hp)⟩
  · rintro ⟨b, a, rfl, ha⟩
    exact ⟨a.reverse, b.reverse, by simp, fun p hp => ha p (by simpa using hp)⟩

/-- Which text the client library reads from an answer: that of the last field of the name;
a missing field, `null` for it and `null` for the whole answer are empty texts, everything
else is an error. -/
theorem C106_field (k : String) (t x : Str) : decodeField k t = some x ↔ Spec.AnswerField k.toList t x := by
  unfold decodeField Spec.AnswerField
  rw [Option.bind_eq_some_iff]
  constructor
  · rintro ⟨j, h1, h2⟩
    refine ⟨j, h1, ?_⟩
    cases j with
    | null => cases h2; exact .inl ⟨rfl, rfl⟩
    | obj fs =>
      refine .inr ⟨fs, rfl, ?_⟩
      simp only at h2
      unfold textField field at h2
      cases hl : fs.reverse.lookup k.toList with
      | none =>
        rw [hl] at h2
        cases h2
        exact .inr (.inr ⟨rfl, fun p hp => (lookup_none _ _).1 hl p (by simpa using hp)⟩)
      | some v =>
        rw [hl] at h2
        have := (last_some _ _ _).1 hl
        cases v with
        | null => cases h2; exact .inr (.inl ⟨rfl, this⟩)
        | str s => cases h2; exact .inl this
        | bool => cases h2
        | num => cases h2
        | arr => cases h2
        | obj => cases h2
    | bool => cases h2
    | num => cases h2
    | str => cases h2
    | arr => cases h2
  · rintro ⟨j, h1, ⟨rfl, rfl⟩ | ⟨fs, rfl, h⟩⟩
    · exact ⟨_, h1, rfl⟩
    · refine ⟨_, h1, ?_⟩
      simp only
      unfold textField field
      rcases h with h | ⟨rfl, h⟩ | ⟨rfl, h⟩
      · rw [(last_some _ _ _).2 h]
      · rw [(last_some _ _ _).2 h]
      · rw [(lookup_none _ _).2 fun p hp => h p (by simpa using hp)]

/-- A document with white space, an exponent and a word. -/
example : JsonDoc (.arr [.num "-1.5e+3".toList, .null]) " [-1.5e+3,\tnull]\r\n".toList := by
  refine ⟨[' '], _, ['\r', '\n'], ?_, by unfold Blank; decide, .arr (.more (b := []) (a := []) blank_nil (.num ?_) blank_nil
    (.one (b := ['\t']) (a := []) (by unfold Blank; decide) .null blank_nil)), by unfold Blank; decide⟩
  · rfl
  · exact ⟨['-'], ['1'], ['.', '5'], ['e', '+', '3'], rfl, .inr rfl, .inr ⟨⟨by decide, by decide⟩, by decide⟩,
      .inr ⟨['5'], ⟨by decide, by decide⟩, rfl⟩, .inr ⟨'e', ['+'], ['3'], .inl rfl, .inr (.inl rfl), ⟨by decide, by decide⟩, rfl⟩⟩

end LogCache
