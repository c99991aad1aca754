import Verif.Spec.EnvelopeJson
import Verif.Proof.FloatShort
import Verif.Proof.JsonGrammar
import Verif.Props.JsonGrammar

/-! # Reading back what was written as JSON -/

namespace LogCache
open Spec

/-! ## Documents -/

mutual
/-- All numbers in a document are numbers. -/
def NumsOk : Json → Prop
  | .num t => NumText t
  | .arr xs => NumsOkList xs
  | .obj fs => NumsOkFields fs
  | _ => True
def NumsOkList : List Json → Prop
  | [] => True
  | x :: xs => NumsOk x ∧ NumsOkList xs
def NumsOkFields : List (Str × Json) → Prop
  | [] => True
  | (_, v) :: fs => NumsOk v ∧ NumsOkFields fs
end

theorem jsonTail_strText (s : Str) : ∃ t, jsonTail s = t ++ ['"'] ∧ StrText t s := by
  have := readJsonStr_tail s []
  rw [List.append_nil, readJsonStr_iff] at this
  exact this

private theorem blank0 : Blank [] := fun _ h => by cases h

mutual
theorem numsOk_text : ∀ j : Json, NumsOk j → JText j j.text
  | .null, _ => by rw [Json.text]; exact .null
  | .bool true, _ => by rw [Json.text]; exact .yes
  | .bool false, _ => by rw [Json.text]; exact .no
  | .num t, h => by rw [NumsOk] at h; rw [Json.text]; exact .num h
  | .str s, _ => by
    obtain ⟨t, h1, h2⟩ := jsonTail_strText s
    rw [Json.text, h1]; exact .str h2
  | .arr [], _ => by rw [Json.text]; exact .emptyArr (b := []) blank0
  | .arr (x :: xs), h => by
    rw [NumsOk, NumsOkList] at h
    obtain ⟨u, h1, h2⟩ := numsOk_elems xs h.2 x x.text (numsOk_text x h.1)
    rw [Json.text, h1]; exact .arr h2
  | .obj [], _ => by rw [Json.text]; exact .emptyObj (b := []) blank0
  | .obj ((k, v) :: fs), h => by
    rw [NumsOk, NumsOkFields] at h
    obtain ⟨u, h1, h2⟩ := numsOk_members fs h.2 k v v.text (numsOk_text v h.1)
    rw [Json.text, h1]; exact .obj h2
theorem numsOk_elems : ∀ (xs : List Json), NumsOkList xs → ∀ x t, JText x t →
    ∃ u, t ++ textElems xs = u ++ [']'] ∧ JElems (x :: xs) u
  | [], _, x, t, hx =>
    ⟨t, by rw [textElems], by simpa using JElems.one (b := []) (a := []) blank0 hx blank0⟩
  | y :: ys, h, x, t, hx => by
    rw [NumsOkList] at h
    obtain ⟨u, h1, h2⟩ := numsOk_elems ys h.2 y y.text (numsOk_text y h.1)
    refine ⟨t ++ ',' :: u, by rw [textElems, h1]; simp, ?_⟩
    simpa using JElems.more (b := []) (a := []) blank0 hx blank0 h2
theorem numsOk_members : ∀ (fs : List (Str × Json)), NumsOkFields fs → ∀ (k : Str) (v : Json) (t : Str), JText v t →
    ∃ u, '"' :: (jsonTail k ++ ':' :: (t ++ textMembers fs)) = u ++ ['}'] ∧ JMembers ((k, v) :: fs) u
  | [], _, k, v, vt, hv => by
    obtain ⟨t, h1, h2⟩ := jsonTail_strText k
    refine ⟨'"' :: (t ++ '"' :: ':' :: vt), by rw [textMembers, h1]; simp, .one ?_⟩
    simpa using JMember.mk (b1 := []) (b2 := []) (b3 := []) (b4 := []) blank0 h2 blank0 blank0 hv blank0
  | (k', v') :: fs, h, k, v, vt, hv => by
    rw [NumsOkFields] at h
    obtain ⟨u, h1, h2⟩ := numsOk_members fs h.2 k' v' v'.text (numsOk_text v' h.1)
    obtain ⟨t, h3, h4⟩ := jsonTail_strText k
    refine ⟨('"' :: (t ++ '"' :: ':' :: vt)) ++ ',' :: u, by rw [textMembers, h1, h3]; simp, .more ?_ h2⟩
    simpa using JMember.mk (b1 := []) (b2 := []) (b3 := []) (b4 := []) blank0 h4 blank0 blank0 hv blank0
end

/-- A document on a line of its own is read as that document. -/
theorem decode_line {j : Json} (h : NumsOk j) : decodeJson j.line = some j := by
  refine (C76_decoder _ _).2 [] j.text ['\n'] rfl blank0 (numsOk_text j h) ?_
  rintro c r' he
  injection he with he _
  subst he
  decide

theorem line_doc {j : Json} (h : NumsOk j) : JsonDoc j j.line :=
  ⟨[], j.text, ['\n'], rfl, blank0, numsOk_text j h, by unfold Blank; decide⟩

/-! ## Decimal notation -/

theorem decDigit_range : ∀ d : Fin 10, '0' ≤ decDigit d ∧ decDigit d ≤ '9' := by decide

theorem decDigit_zero : ∀ d : Fin 10, decDigit d = '0' → d.1 = 0 := by decide

theorem dec_run (n : Nat) : DigitRun (dec n) := by
  induction n using Nat.strongRecOn with
  | ind n ih =>
    rw [dec]
    by_cases h : n < 10
    · rw [if_pos h]
      exact ⟨by simp, fun c hc => by rw [List.mem_singleton.1 hc]; exact decDigit_range ⟨n, h⟩⟩
    · rw [if_neg h]
      refine ⟨by simp, fun c hc => ?_⟩
      rcases List.mem_append.1 hc with hc | hc
      · exact (ih (n / 10) (by omega)).2 c hc
      · rw [List.mem_singleton.1 hc]; exact decDigit_range ⟨n % 10, Nat.mod_lt _ (by decide)⟩

theorem dec_head (n : Nat) (hn : 0 < n) : (dec n).head? ≠ some '0' := by
  induction n using Nat.strongRecOn with
  | ind n ih =>
    rw [dec]
    by_cases h : n < 10
    · rw [if_pos h]
      simp only [List.head?_cons, ne_eq, Option.some.injEq]
      intro hz
      have := decDigit_zero ⟨n, h⟩ hz
      simp only at this; omega
    · rw [if_neg h]
      have := ih (n / 10) (by omega) (by omega)
      have hne := (dec_run (n / 10)).1
      cases hd : dec (n / 10) with
      | nil => exact absurd hd hne
      | cons c r => rw [hd] at this; simpa using this

theorem dec_whole (n : Nat) : dec n = ['0'] ∨ DigitRun (dec n) ∧ (dec n).head? ≠ some '0' := by
  rcases Nat.eq_zero_or_pos n with rfl | h
  · exact .inl (by decide +kernel)
  · exact .inr ⟨dec_run n, dec_head n h⟩

theorem numText_int (n : Int) : NumText (formatInt n) := by
  rw [formatInt_eq]
  unfold decInt
  split
  · exact ⟨['-'], dec n.natAbs, [], [], by simp, .inr rfl, dec_whole _, .inl rfl, .inl rfl⟩
  · exact ⟨[], dec n.natAbs, [], [], by simp, .inl rfl, dec_whole _, .inl rfl, .inl rfl⟩

theorem pad_run (k n : Nat) (hk : 0 < k) : DigitRun (padDigits k n) := by
  refine ⟨fun h => by have := pad_length k n; rw [h] at this; simp at this; omega, ?_⟩
  clear hk
  induction k generalizing n with
  | zero => intro c hc; cases hc
  | succ k ih =>
    intro c hc
    rw [padDigits] at hc
    rcases List.mem_append.1 hc with hc | hc
    · exact ih _ c hc
    · rw [List.mem_singleton.1 hc, fmtDigit_eq (Nat.mod_lt _ (by decide))]
      exact decDigit_range ⟨n % 10, Nat.mod_lt _ (by decide)⟩

private theorem sign_text (neg : Bool) : (if neg then ['-'] else ([] : Str)) = [] ∨ (if neg then ['-'] else ([] : Str)) = ['-'] := by
  cases neg
  · exact .inl rfl
  · exact .inr rfl

theorem numText_plain (neg : Bool) (d : Nat) (k : Int) : NumText (fmtPlain neg d k) := by
  unfold fmtPlain
  simp only
  generalize trimZeros (d * 10 ^ k.toNat) (-k).toNat = p
  obtain ⟨c, j⟩ := p
  simp only
  by_cases hj : j = 0
  · rw [if_pos hj, fmtNat_eq]
    exact ⟨_, dec c, [], [], by simp, sign_text neg, dec_whole _, .inl rfl, .inl rfl⟩
  · rw [if_neg hj]
    unfold fmtFixed
    rw [fmtNat_eq]
    exact ⟨_, dec (c / 10 ^ j), '.' :: padDigits j (c % 10 ^ j), [], by simp, sign_text neg, dec_whole _,
      .inr ⟨_, pad_run _ _ (by omega), rfl⟩, .inl rfl⟩

/-! ## Exponents -/

theorem trimZeros_le (d j : Nat) : (trimZeros d j).2 ≤ j := by
  induction j generalizing d with
  | zero => rw [trimZeros]
  | succ j ih =>
    rw [trimZeros]
    split
    · exact Nat.le_succ_of_le (ih _)
    · exact Nat.le_refl _

private theorem dec_split (n : Nat) : ∃ c r, dec n = c :: r := by
  cases h : dec n with
  | nil => exact absurd h (dec_run n).1
  | cons c r => exact ⟨c, r, rfl⟩

/-- The shape of a number with an exponent. -/
private theorem sci_shape (neg : Bool) (d : Nat) (k : Int) : ∃ D j c r x, trimZeros d 20 = (D, j) ∧ dec D = c :: r ∧
    x = k + (20 - j : Nat) + (r.length : Int) ∧
    fmtSci neg d k = (if neg then ['-'] else []) ++ ((c :: (if r = [] then [] else '.' :: r)) ++
      'e' :: (if x < 0 then '-' else '+') :: dec x.natAbs) := by
  rcases hp : trimZeros d 20 with ⟨D, j⟩
  obtain ⟨c, r, hd⟩ := dec_split D
  refine ⟨D, j, c, r, _, rfl, hd, rfl, ?_⟩
  unfold fmtSci
  simp only [hp, fmtNat_eq, List.append_nil, hd, List.length_cons, Nat.add_sub_cancel, List.take_succ_cons, List.take_zero,
    List.drop_succ_cons, List.drop_zero]
  by_cases hr : r = []
  · subst hr; simp
  · simp [hr]

theorem numText_sci (neg : Bool) (d : Nat) (hd : 0 < d) (k : Int) : NumText (fmtSci neg d k) := by
  obtain ⟨D, j, c, r, x, hp, hD, -, h⟩ := sci_shape neg d k
  have hDpos : 0 < D := by
    rcases Nat.eq_zero_or_pos D with h0 | h0
    · exfalso
      have := trimZeros_value d 20
      rw [hp, h0] at this
      simp only [Nat.cast_zero, zero_div] at this
      have h10 : (0 : ℚ) < 10 ^ 20 := by norm_num
      rw [eq_comm, div_eq_zero_iff] at this
      rcases this with h | h
      · have : d = 0 := by exact_mod_cast h
        omega
      · linarith
    · exact h0
  have hrun := dec_run D
  have hhead := dec_head D hDpos
  rw [hD] at hrun hhead
  rw [h]
  refine ⟨_, [c], if r = [] then [] else '.' :: r, 'e' :: (if x < 0 then '-' else '+') :: dec x.natAbs, ?_, sign_text neg,
    .inr ⟨⟨by simp, fun y hy => hrun.2 y (by rw [List.mem_singleton.1 hy]; exact .head _)⟩, by simpa using hhead⟩, ?_, .inr ?_⟩
  · simp
  · by_cases hr : r = []
    · exact .inl (by simp [hr])
    · exact .inr ⟨r, ⟨hr, fun y hy => hrun.2 y (.tail _ hy)⟩, by simp [hr]⟩
  · refine ⟨'e', [if x < 0 then '-' else '+'], dec x.natAbs, .inl rfl, ?_, dec_run _, rfl⟩
    by_cases hx : x < 0
    · exact .inr (.inr (by simp [hx]))
    · exact .inr (.inl (by simp [hx]))

theorem parse_sci (neg : Bool) (d : Nat) (k : Int) :
    parseFloat (fmtSci neg d k) = f64Result (f64Round neg (d * 10 ^ k.toNat) (10 ^ (-k).toNat)) := by
  obtain ⟨D, j, c, r, x, hp, hD, hx, h⟩ := sci_shape neg d k
  have hj := trimZeros_le d 20
  have hval := trimZeros_value d 20
  rw [hp] at hj hval
  simp only at hj hval
  have hnum := numeral_dec D
  rw [hD] at hnum
  have hbase : DecimalText (c :: (if r = [] then [] else '.' :: r)) ((D : ℚ) / 10 ^ r.length) := by
    by_cases hr : r = []
    · subst hr; exact .inl ⟨D, by simpa using hnum, by simp⟩
    · exact .inr ⟨[c], r, D, by simp [hr], hnum, rfl⟩
  have hexp : ExponentText ('e' :: (if x < 0 then '-' else '+') :: dec x.natAbs) x := by
    refine .inr ⟨'e', _, x.natAbs, rfl, .inl rfl, ?_⟩
    by_cases hx0 : x < 0
    · exact .inr (.inr ⟨dec x.natAbs, by simp [hx0], numeral_dec _, by omega⟩)
    · exact .inr (.inl ⟨dec x.natAbs, by simp [hx0], numeral_dec _, by omega⟩)
  have hq : (D : ℚ) / 10 ^ r.length * 10 ^ x = d * (10 : ℚ) ^ k := by
    have h10 : (10 : ℚ) ≠ 0 := by norm_num
    have hD' : (D : ℚ) = d / 10 ^ 20 * 10 ^ j := by
      rw [← hval]; field_simp
    rw [hx, hD', zpow_add₀ h10, zpow_add₀ h10, zpow_natCast, zpow_natCast]
    have e : (10 : ℚ) ^ 20 = 10 ^ j * 10 ^ (20 - j) := by rw [← pow_add]; congr 1; omega
    rw [e]
    field_simp
  have hsci : ScientificText ((c :: (if r = [] then [] else '.' :: r)) ++ 'e' :: (if x < 0 then '-' else '+') :: dec x.natAbs)
      (d * (10 : ℚ) ^ k) := ⟨_, _, _, x, rfl, hbase, hexp, hq.symm⟩
  have hsig : SignedText (fmtSci neg d k) neg (d * (10 : ℚ) ^ k) := by
    rw [h]
    cases neg
    · exact .inl ⟨rfl, .inl hsci⟩
    · exact .inr ⟨rfl, _, rfl, hsci⟩
  obtain ⟨num, den, h1, h2, h3⟩ := parseFloat_signed hsig
  rw [h3]
  congr 1
  apply f64Round_congr neg h1 (Nat.pow_pos (by omega))
  rw [← h2, ← pow10_split]

theorem shortDigits_round {s : Bool} {m : Nat} {e : Int} (hx : Binary64 (.fin s m e)) (hm : 0 < m) :
    f64Round s ((shortDigits m e).1 * 10 ^ (shortDigits m e).2.toNat) (10 ^ (-(shortDigits m e).2).toNat) = .fin s m e := by
  have := shortDigits_reads hx hm
  unfold readsAs at this
  rw [decide_eq_true_eq] at this
  revert this
  generalize (shortDigits m e).1 * 10 ^ (shortDigits m e).2.toNat = num
  generalize 10 ^ (-(shortDigits m e).2).toNat = den
  unfold f64Round f64Norm
  intro h
  split at h
  · rw [if_pos (by assumption)]; cases h; rfl
  rw [if_neg (by assumption)]
  split at h
  · rw [if_pos (by assumption)]; cases h; rfl
  rw [if_neg (by assumption)]
  split at h
  · rw [if_pos (by assumption)]
    split at h
    · cases h
    · rw [if_neg (by assumption)]; cases h; rfl
  · rw [if_neg (by assumption)]
    split at h
    · cases h
    · rw [if_neg (by assumption)]; cases h; rfl

/-- The digits of a positive number are not all zero. -/
private theorem shortDigits_pos {s : Bool} {m : Nat} {e : Int} (hx : Binary64 (.fin s m e)) (hm : 0 < m) : 0 < (shortDigits m e).1 := by
  rcases Nat.eq_zero_or_pos (shortDigits m e).1 with h | h
  · have := shortDigits_round hx hm
    rw [h, Nat.zero_mul] at this
    unfold f64Round at this
    rw [if_pos rfl] at this
    injection this with _ h2 _
    omega
  · exact h

/-- A finite float64 is written as a JSON number that is read as it. -/
theorem jsonFloat_read {s : Bool} {m : Nat} {e : Int} (hx : Binary64 (.fin s m e)) :
    NumText (jsonFloatText s m e) ∧ parseFloat (jsonFloatText s m e) = some (.fin s m e) := by
  unfold jsonFloatText
  by_cases hm : m = 0
  · have he : e = 0 := by rcases hx with ⟨-, h⟩ | ⟨h, -⟩ <;> omega
    subst hm; subst he
    simp only [if_true]
    refine ⟨?_, by cases s <;> decide +kernel⟩
    cases s
    · exact ⟨[], ['0'], [], [], rfl, .inl rfl, .inl rfl, .inl rfl, .inl rfl⟩
    · exact ⟨['-'], ['0'], [], [], rfl, .inr rfl, .inl rfl, .inl rfl, .inl rfl⟩
  · have hm := Nat.pos_of_ne_zero hm
    have hr := shortDigits_round hx hm
    rw [if_neg (Nat.pos_iff_ne_zero.1 hm)]
    split
    · exact ⟨numText_sci _ _ (shortDigits_pos hx hm) _, by rw [parse_sci, hr]; rfl⟩
    · exact ⟨numText_plain _ _ _, by rw [parse_plain, hr]; rfl⟩

/-! ## Base64 -/

private theorem b64_digit : ∀ n : Fin 64, b64Val (b64Char n) = some n.1 ∧ b64Char n ≠ '\n' ∧ b64Char n ≠ '\r' := by decide +kernel

private theorem b64_pad : b64Val '=' = none := by decide

private theorem byte_eq (n : Nat) (a : UInt8) (h : n = a.toNat) : UInt8.ofNat n = a := by
  subst h; exact UInt8.ofNat_toNat

private theorem b64_groups (bs : List UInt8) : b64Groups (b64Encode bs) = some bs ∧ ∀ c ∈ b64Encode bs, c ≠ '\n' ∧ c ≠ '\r' := by
  have key : ∀ {n : Nat}, n < 64 → b64Val (b64Char n) = some n ∧ b64Char n ≠ '\n' ∧ b64Char n ≠ '\r' := fun h => b64_digit ⟨_, h⟩
  have lt : ∀ a : UInt8, a.toNat < 256 := fun a => a.toNat_lt
  match bs with
  | [] => exact ⟨rfl, fun c hc => by cases hc⟩
  | [a] =>
    have ha := lt a
    have h1 := key (n := a.toNat / 4) (by omega)
    have h2 := key (n := a.toNat % 4 * 16) (by omega)
    rw [b64Encode]
    constructor
    · rw [b64Groups.eq_def]
      simp only [b64Quad, h1.1, h2.1, b64_pad, List.isEmpty_nil, if_true, b64Last]
      rw [byte_eq _ a (by omega)]
    · intro c hc
      simp only [List.mem_cons, List.not_mem_nil, or_false] at hc
      rcases hc with rfl | rfl | rfl | rfl
      · exact h1.2
      · exact h2.2
      · decide
      · decide
  | [a, b] =>
    have ha := lt a; have hb := lt b
    have h1 := key (n := a.toNat / 4) (by omega)
    have h2 := key (n := a.toNat % 4 * 16 + b.toNat / 16) (by omega)
    have h3 := key (n := b.toNat % 16 * 4) (by omega)
    have h3' : b64Char (b.toNat % 16 * 4) ≠ '=' := by intro h; rw [h, b64_pad] at h3; cases h3.1
    rw [b64Encode]
    constructor
    · rw [b64Groups.eq_def]
      simp only [b64Quad, h1.1, h2.1, h3.1, b64_pad, List.isEmpty_nil, if_true, b64Last, if_neg h3', Option.map_some]
      rw [byte_eq _ a (by omega), byte_eq _ b (by omega)]
    · intro c hc
      simp only [List.mem_cons, List.not_mem_nil, or_false] at hc
      rcases hc with rfl | rfl | rfl | rfl
      · exact h1.2
      · exact h2.2
      · exact h3.2
      · decide
  | a :: b :: c :: r =>
    have ha := lt a; have hb := lt b; have hc := lt c
    have h1 := key (n := a.toNat / 4) (by omega)
    have h2 := key (n := a.toNat % 4 * 16 + b.toNat / 16) (by omega)
    have h3 := key (n := b.toNat % 16 * 4 + c.toNat / 64) (by omega)
    have h4 := key (n := c.toNat % 64) (by omega)
    obtain ⟨ih1, ih2⟩ := b64_groups r
    rw [b64Encode]
    constructor
    · rw [b64Groups.eq_def]
      simp only [b64Quad, h1.1, h2.1, h3.1, h4.1, ih1, Option.map_some]
      rw [byte_eq _ a (by omega), byte_eq _ b (by omega), byte_eq _ c (by omega)]
      rfl
    · intro x hx
      simp only [List.mem_cons] at hx
      rcases hx with rfl | rfl | rfl | rfl | hx
      · exact h1.2
      · exact h2.2
      · exact h3.2
      · exact h4.2
      · exact ih2 x hx

/-- Bytes survive base64. -/
theorem b64_read (bs : List UInt8) : b64Decode (b64Encode bs) = some bs := by
  obtain ⟨h1, h2⟩ := b64_groups bs
  unfold b64Decode
  rw [List.filter_eq_self.2, h1]
  intro c hc
  simp [h2 c hc]

/-! ## Fields -/

private theorem number_doc {t : Str} (h : NumText t) : unmarshalJson t = some (.num t) :=
  (C76_grammar _ _).2 ⟨[], t, [], by simp, blank0, .num h, blank0⟩

theorem int_read {n : Int} (h : FitsInt64 n) : readInt64 (intJson n) = some n := by
  unfold readInt64 intJson readNumber orZero numberText
  simp only [number_doc (numText_int n)]
  exact parse_format h

theorem uint_read {n : Nat} (h : n < 2 ^ 64) : readUint64 (intJson n) = some n := by
  unfold readUint64 intJson readNumber orZero numberText
  simp only [number_doc (numText_int n)]
  rw [formatInt_eq]
  unfold decInt
  rw [if_neg (by omega)]
  exact parseUint64_dec h

theorem float_read {x : F64} (h : Binary64 x) : readFloat64 (floatJson x) = some x := by
  cases x with
  | nan => rfl
  | inf s => cases s <;> rfl
  | fin s m e =>
    unfold floatJson readFloat64 readNumber orZero numberText
    simp only
    exact (jsonFloat_read h).2

theorem bytes_read (b : Option (List UInt8)) : readBytes (bytesJson b) = some b := by
  cases b with
  | none => rfl
  | some bs =>
    unfold bytesJson readBytes orZero
    simp only [b64_read, Option.map_some]

theorem logType_read {n : Int} (h : -2 ^ 31 ≤ n ∧ n < 2 ^ 31) : readLogType (logTypeJson n) = some n := by
  unfold logTypeJson
  by_cases h0 : n = 0
  · subst h0; rfl
  rw [if_neg h0]
  by_cases h1 : n = 1
  · subst h1; rfl
  rw [if_neg h1]
  unfold readLogType orZero parseInt32
  simp only
  rw [parse_format (n := n) ⟨by omega, by omega⟩]
  simp only
  rw [if_pos h]

private theorem set_last {α : Type} (k : Str) (v : α) (m : List (Str × α)) (h : ∀ p ∈ m, p.1 < k) : setKey k v m = m ++ [(k, v)] := by
  induction m with
  | nil => rfl
  | cons p m ih =>
    obtain ⟨k', v'⟩ := p
    have hk : k' < k := h _ (.head _)
    have h1 : keyBefore k k' = false := by
      unfold keyBefore
      exact decide_eq_false fun h' => absurd hk (List.lt_asymm h')
    have h2 : k ≠ k' := by rintro rfl; exact List.lt_irrefl _ hk
    rw [setKey, h1, if_neg (by decide), if_neg h2, ih fun p hp => h p (.tail _ hp)]
    rfl

private theorem entries_read {α : Type} (f : α → Json) (g : Json → Option α) (m : List (Str × α)) :
    ∀ acc : List (Str × α), KeysInOrder (acc ++ m) → (∀ p ∈ m, g (f p.2) = some p.2) →
      readEntries g (m.map fun kv => (kv.1, f kv.2)) acc = some (acc ++ m) := by
  induction m with
  | nil => intro acc _ _; simp [readEntries]
  | cons p m ih =>
    intro acc ho hg
    obtain ⟨k, v⟩ := p
    have hv := hg _ (.head _)
    simp only at hv
    have hlast : ∀ p ∈ acc, p.1 < k := by
      intro p hp
      exact (List.pairwise_append.1 ho).2.2 p hp _ (.head _)
    rw [List.map_cons, readEntries, hv]
    simp only
    rw [set_last k v acc hlast, ih]
    · simp
    · unfold KeysInOrder at ho ⊢; simpa using ho
    · exact fun p hp => hg p (.tail _ hp)

theorem map_read {α : Type} (f : α → Json) (g : Json → Option α) {m : List (Str × α)} (ho : KeysInOrder m)
    (hg : ∀ p ∈ m, g (f p.2) = some p.2) : readMap g (mapJson f m) = some m := by
  unfold readMap mapJson orZero
  simp only
  exact entries_read f g m [] ho hg

theorem list_read {α : Type} (f : α → Json) (g : Json → Option α) {xs : List α} (hg : ∀ x ∈ xs, g (f x) = some x) :
    traverse g (xs.map f) = some xs := by
  induction xs with
  | nil => rfl
  | cons x xs ih =>
    rw [List.map_cons, traverse, hg x (.head _), ih fun y hy => hg y (.tail _ hy)]

/-! ## Messages -/

theorem tagValue_read {v : TagValue} (h : ValidTagValue v) : readTagValue (tagValueJson v) = some v := by
  cases v with
  | unset => rfl
  | text s => rfl
  | integer n =>
    show (readInt64 (intJson n)).map TagValue.integer = _
    rw [int_read h]; rfl
  | decimal x =>
    show (readFloat64 (floatJson x)).map TagValue.decimal = _
    rw [float_read h]; rfl

theorem wireGauge_read {g : WireGauge} (h : Binary64 g.value) : readWireGauge (wireGaugeJson g) = some g := by
  show (match some g.unit, readFloat64 (floatJson g.value) with
    | some u, some v => some (WireGauge.mk u v)
    | _, _ => none) = _
  rw [float_read h]

theorem wireLog_read {p : Option (List UInt8)} {t : Int} (h : -2 ^ 31 ≤ t ∧ t < 2 ^ 31) :
    readWireLog (wireMessageJson (.log p t)).2 = some (.log p t) := by
  show (match readBytes (bytesJson p), readLogType (logTypeJson t) with
    | some p, some t => some (WireMessage.log p t)
    | _, _ => none) = _
  rw [bytes_read, logType_read h]

theorem wireCounter_read {n : Str} {d t : Nat} (hd : d < 2 ^ 64) (ht : t < 2 ^ 64) :
    readWireCounter (wireMessageJson (.counter n d t)).2 = some (.counter n d t) := by
  show (match some n, readUint64 (intJson d), readUint64 (intJson t) with
    | some n, some d, some t => some (WireMessage.counter n d t)
    | _, _, _ => none) = _
  rw [uint_read hd, uint_read ht]

theorem wireMetrics_read {ms : List (Str × WireGauge)} (ho : KeysInOrder ms) (h : ∀ p ∈ ms, Binary64 p.2.value) :
    readWireMetrics (wireMessageJson (.gauge ms)).2 = some (.gauge ms) := by
  show (readMap readWireGauge (mapJson wireGaugeJson ms)).map WireMessage.gauge = _
  rw [map_read _ _ ho fun p hp => wireGauge_read (h p hp)]
  rfl

theorem wireTimer_read {n : Str} {a b : Int} (ha : FitsInt64 a) (hb : FitsInt64 b) :
    readWireTimer (wireMessageJson (.timer n a b)).2 = some (.timer n a b) := by
  show (match some n, readInt64 (intJson a), readInt64 (intJson b) with
    | some n, some d, some t => some (WireMessage.timer n d t)
    | _, _, _ => none) = _
  rw [int_read ha, int_read hb]

theorem wireEnvelope_read {e : WireEnvelope} (h : ValidEnvelope e) : readWireEnvelope (wireEnvelopeJson e) = some e := by
  obtain ⟨ts, s, i, d, g, m⟩ := e
  obtain ⟨h1, h2, h3, h4, h5⟩ := h
  simp only at h1 h2 h3 h4 h5
  have a1 := int_read h1
  have a2 : readText64 (.str s) = some s := rfl
  have a3 : readText64 (.str i) = some i := rfl
  have a4 := map_read tagValueJson readTagValue h2 fun p hp => tagValue_read (h3 p hp)
  have a5 := map_read Json.str readText64 h4 fun p _ => rfl
  have key : ∀ fs : List (Str × Json), ∀ mm : Option WireMessage, readWireMessage fs = some mm →
      (match readInt64 (intJson ts), readText64 (.str s), readText64 (.str i), readMap readTagValue (mapJson tagValueJson d),
        readMap readText64 (mapJson .str g), readWireMessage fs with
      | some t, some s, some i, some d, some g, some m => some (WireEnvelope.mk t s i d g m)
      | _, _, _, _, _, _ => none) = some ⟨ts, s, i, d, g, mm⟩ := by
    intro fs mm hm
    rw [a1, a2, a3, a4, a5, hm]
  cases m with
  | none => exact key _ none rfl
  | some m =>
    have hm := h5 m rfl
    cases m with
    | log p t =>
      refine key _ _ ?_
      show (readWireLog (wireMessageJson (.log p t)).2).map some = _
      rw [wireLog_read hm]; rfl
    | counter n a b =>
      refine key _ _ ?_
      show (readWireCounter (wireMessageJson (.counter n a b)).2).map some = _
      rw [wireCounter_read hm.1 hm.2]; rfl
    | gauge ms =>
      refine key _ _ ?_
      show (readWireMetrics (wireMessageJson (.gauge ms)).2).map some = _
      rw [wireMetrics_read hm.1 hm.2]; rfl
    | timer n a b =>
      refine key _ _ ?_
      show (readWireTimer (wireMessageJson (.timer n a b)).2).map some = _
      rw [wireTimer_read hm.1 hm.2]; rfl
    | event t b => exact key _ _ rfl

theorem readResponse_read {r : Option (List WireEnvelope)} (h : ∀ es, r = some es → ∀ e ∈ es, ValidEnvelope e) :
    readReadResponse (readResponseJson r) = some (r.getD []) := by
  cases r with
  | none => rfl
  | some es =>
    show traverse readWireEnvelope (es.map wireEnvelopeJson) = some es
    exact list_read _ _ fun e he => wireEnvelope_read (h es rfl e he)

theorem metaResponse_read {m : List (Str × WireMeta)} (h : ValidMetaMap m) : readMetaResponse (metaResponseJson m) = some m := by
  show readMap readWireMeta (mapJson wireMetaJson m) = some m
  refine map_read _ _ h.1 fun p hp => ?_
  obtain ⟨h1, h2, h3, h4⟩ := h.2 p hp
  show (match readInt64 (intJson p.2.count), readInt64 (intJson p.2.expired), readInt64 (intJson p.2.oldest),
      readInt64 (intJson p.2.newest) with
    | some c, some x, some o, some n => some (WireMeta.mk c x o n)
    | _, _, _, _ => none) = _
  rw [int_read h1, int_read h2, int_read h3, int_read h4]

/-! ## All numbers are numbers -/

private theorem nums_map {α : Type} (f : α → Json) (m : List (Str × α)) (h : ∀ p ∈ m, NumsOk (f p.2)) : NumsOk (mapJson f m) := by
  unfold mapJson
  rw [NumsOk]
  induction m with
  | nil => trivial
  | cons p m ih => rw [List.map_cons, NumsOkFields]; exact ⟨h p (.head _), ih fun q hq => h q (.tail _ hq)⟩

private theorem nums_str (s : Str) : NumsOk (.str s) := by simp [NumsOk]

private theorem nums_float {x : F64} (h : Binary64 x) : NumsOk (floatJson x) := by
  cases x with
  | nan => exact nums_str _
  | inf s => exact nums_str _
  | fin s m e => unfold floatJson; rw [NumsOk]; exact (jsonFloat_read h).1

private theorem nums_tag {v : TagValue} (h : ValidTagValue v) : NumsOk (tagValueJson v) := by
  cases v with
  | unset => simp [tagValueJson, NumsOk, NumsOkFields]
  | text s => simp [tagValueJson, NumsOk, NumsOkFields]
  | integer n => simp [tagValueJson, intJson, NumsOk, NumsOkFields]
  | decimal x => simp only [tagValueJson, NumsOk, NumsOkFields, and_true]; exact nums_float h

private theorem nums_message {m : WireMessage} (h : ValidMessage m) : NumsOk (wireMessageJson m).2 := by
  cases m with
  | log p t =>
    simp only [wireMessageJson, NumsOk, NumsOkFields, and_true]
    refine ⟨by cases p <;> simp [bytesJson, NumsOk], ?_⟩
    unfold logTypeJson
    split
    · simp [NumsOk]
    · split
      · simp [NumsOk]
      · rw [NumsOk]; exact numText_int t
  | counter n d t => simp [wireMessageJson, intJson, NumsOk, NumsOkFields]
  | gauge ms =>
    simp only [wireMessageJson, NumsOk, NumsOkFields, and_true]
    exact nums_map _ _ fun p hp => by
      simp only [wireGaugeJson, NumsOk, NumsOkFields, and_true, true_and]
      exact nums_float (h.2 p hp)
  | timer n a b => simp [wireMessageJson, intJson, NumsOk, NumsOkFields]
  | event t b => simp [wireMessageJson, NumsOk, NumsOkFields]

theorem nums_envelope {e : WireEnvelope} (h : ValidEnvelope e) : NumsOk (wireEnvelopeJson e) := by
  obtain ⟨h1, h2, h3, h4, h5⟩ := h
  have hd := nums_map tagValueJson e.deprecatedTags fun p hp => nums_tag (h3 p hp)
  have hg := nums_map Json.str e.tags fun p _ => by simp [NumsOk]
  unfold wireEnvelopeJson
  cases hm : e.message with
  | none =>
    simp only [Option.map_none, Option.toList_none, List.append_nil, NumsOk, NumsOkFields, and_true, true_and, intJson]
    exact ⟨hd, hg⟩
  | some m =>
    have := nums_message (h5 m hm)
    rcases hj : wireMessageJson m with ⟨k, j⟩
    rw [hj] at this
    simp only [Option.map_some, Option.toList_some, List.cons_append, List.nil_append, NumsOk, NumsOkFields, and_true, true_and, intJson, hj]
    exact ⟨hd, hg, this⟩

theorem nums_readResponse {r : Option (List WireEnvelope)} (h : ∀ es, r = some es → ∀ e ∈ es, ValidEnvelope e) :
    NumsOk (readResponseJson r) := by
  cases r with
  | none => simp [readResponseJson, NumsOk, NumsOkFields]
  | some es =>
    simp only [readResponseJson, NumsOk, NumsOkFields, and_true]
    have := h es rfl
    clear h
    induction es with
    | nil => trivial
    | cons e es ih => rw [List.map_cons, NumsOkList]; exact ⟨nums_envelope (this e (.head _)), ih fun x hx => this x (.tail _ hx)⟩

theorem nums_metaResponse (m : List (Str × WireMeta)) : NumsOk (metaResponseJson m) := by
  simp only [metaResponseJson, NumsOk, NumsOkFields, and_true]
  exact nums_map _ _ fun p _ => by simp [wireMetaJson, intJson, NumsOk, NumsOkFields]

end LogCache
