import Verif.Model.Protobuf
import Verif.Spec.Protobuf

/-! # Reading back what was written as protocol buffers -/

namespace LogCache
open LogCache.Spec

/-! ## Varints -/

theorem putVarint_pos (n : Nat) : 0 < (putVarint n).length := by
  rw [putVarint]; split <;> simp

theorem getVarintN_put (k : Nat) : ∀ (n : Nat) (r : List UInt8), n < 128 ^ (k + 1) →
    getVarintN (k + 1) (putVarint n ++ r) = some (n, r) := by
  induction k with
  | zero =>
    intro n r h
    rw [putVarint, if_pos (by omega)]
    have : (UInt8.ofNat n).toNat = n := by simp; omega
    simp only [List.cons_append, List.nil_append, getVarintN, this]
    rw [if_pos (by omega)]
  | succ k ih =>
    intro n r h
    rw [putVarint]
    by_cases h1 : n < 128
    · have : (UInt8.ofNat n).toNat = n := by simp; omega
      rw [if_pos h1]
      simp only [List.cons_append, List.nil_append, getVarintN, this]
      rw [if_pos h1]
    · have h2 : (UInt8.ofNat (n % 128 + 128)).toNat = n % 128 + 128 := by simp; omega
      rw [if_neg h1]
      simp only [List.cons_append, getVarintN, h2]
      rw [if_neg (by omega), ih (n / 128) r (by rw [Nat.pow_succ] at h; omega)]
      simp only [Option.map_some, Option.some.injEq, Prod.mk.injEq, and_true]
      omega

theorem getVarint_put (n : Nat) (r : List UInt8) (h : n < 2 ^ 64) : getVarint (putVarint n ++ r) = some (n, r) := by
  unfold getVarint
  rw [getVarintN_put 9 n r (by omega)]
  simp only
  rw [if_pos h]

theorem getFixed_put (k : Nat) : ∀ (n : Nat) (r : List UInt8), n < 256 ^ k → getFixed k (putFixed k n ++ r) = some (n, r) := by
  induction k with
  | zero =>
    intro n r h
    have : n = 0 := by simp at h; omega
    subst this; rfl
  | succ k ih =>
    intro n r h
    have h2 : (UInt8.ofNat (n % 256)).toNat = n % 256 := by simp
    simp only [putFixed, List.cons_append, getFixed, h2]
    rw [ih (n / 256) r (by rw [Nat.pow_succ] at h; omega)]
    simp only [Option.map_some, Option.some.injEq, Prod.mk.injEq, and_true]
    omega

/-! ## Fields -/

/-- Fields that can be written. -/
def FieldOk : Nat × WireVal → Prop
  | (k, v) => k < 2 ^ 60 ∧ match v with
    | .varint n => n < 2 ^ 64
    | .fixed64 n => n < 2 ^ 64
    | .bytes bs => bs.length < 2 ^ 64
    | .fixed32 n => n < 2 ^ 32

/-- Fields that can be written if there is memory for them. -/
def FieldOk' : Nat × WireVal → Prop
  | (k, v) => k < 2 ^ 60 ∧ match v with
    | .varint n => n < 2 ^ 64
    | .fixed64 n => n < 2 ^ 64
    | .bytes _ => True
    | .fixed32 n => n < 2 ^ 32

theorem readWireVal_body (k : Nat) (v : WireVal) (r : List UInt8) (h : FieldOk (k, v)) :
    readWireVal v.wireType (v.body ++ r) = some (v, r) := by
  cases v with
  | varint n =>
    change (getVarint (putVarint n ++ r)).map _ = _
    rw [getVarint_put n r h.2]; rfl
  | fixed64 n =>
    have h2 : n < 2 ^ 64 := h.2
    change (getFixed 8 (putFixed 8 n ++ r)).map (fun p => (WireVal.fixed64 p.1, p.2)) = _
    rw [getFixed_put 8 n r (by omega)]; rfl
  | bytes bs =>
    change (match getVarint ((putVarint bs.length ++ bs) ++ r) with
      | some (n, r) => if n ≤ r.length then some (WireVal.bytes (r.take n), r.drop n) else none
      | none => none) = _
    rw [List.append_assoc, getVarint_put _ _ h.2]
    simp
  | fixed32 n =>
    have h2 : n < 2 ^ 32 := h.2
    change (getFixed 4 (putFixed 4 n ++ r)).map (fun p => (WireVal.fixed32 p.1, p.2)) = _
    rw [getFixed_put 4 n r (by omega)]; rfl

theorem wireType_lt (v : WireVal) : v.wireType < 8 := by cases v <;> simp [WireVal.wireType]

theorem parse_cons (k : Nat) (v : WireVal) (rest : List UInt8) (n : Nat) (h : FieldOk (k, v)) :
    parseFieldsN (n + 1) (putVarint (k * 8 + v.wireType) ++ v.body ++ rest) =
      (parseFieldsN n rest).map ((k, v) :: ·) := by
  have hw := wireType_lt v
  have hk : k < 2 ^ 60 := h.1
  have hg := getVarint_put (k * 8 + v.wireType) (v.body ++ rest) (by omega)
  rw [List.append_assoc]
  cases hb : putVarint (k * 8 + v.wireType) ++ (v.body ++ rest) with
  | nil => rw [hb] at hg; simp [getVarint, getVarintN] at hg
  | cons b s =>
    rw [hb] at hg
    simp only [parseFieldsN, hg]
    rw [show (k * 8 + v.wireType) % 8 = v.wireType by omega, show (k * 8 + v.wireType) / 8 = k by omega,
      readWireVal_body k v rest h]

theorem parseN_enc : ∀ (fs : List (Nat × WireVal)) (s : List UInt8) (n : Nat), (∀ f ∈ fs, FieldOk f) →
    parseFieldsN (n + fs.length) (encFields fs ++ s) = (parseFieldsN n s).map (fs ++ ·)
  | [], s, n, _ => by
    simp [encFields]
  | (k, v) :: fs, s, n, h => by
    have hk := h (k, v) (List.mem_cons_self ..)
    simp only [encFields, List.length_cons]
    rw [List.append_assoc _ _ s, show n + (fs.length + 1) = (n + fs.length) + 1 by omega, parse_cons k v _ _ hk,
      parseN_enc fs s n fun f hf => h f (List.mem_cons_of_mem _ hf)]
    cases parseFieldsN n s <;> simp

/-- More fuel than needed changes nothing. -/
theorem getVarintN_len : ∀ (k : Nat) (s : List UInt8) (n : Nat) (r : List UInt8), getVarintN k s = some (n, r) → r.length < s.length
  | 0, s, n, r, h => by simp [getVarintN] at h
  | k + 1, [], n, r, h => by simp [getVarintN] at h
  | k + 1, b :: s, n, r, h => by
    simp only [getVarintN] at h
    split at h
    · simp only [Option.some.injEq, Prod.mk.injEq] at h
      rw [← h.2]; simp
    · cases hg : getVarintN k s with
      | none => simp [hg] at h
      | some p =>
        obtain ⟨m, r'⟩ := p
        simp only [hg, Option.map_some, Option.some.injEq, Prod.mk.injEq] at h
        have := getVarintN_len k s m r' hg
        rw [← h.2]; simp; omega

theorem getVarint_len {s r : List UInt8} {n : Nat} (h : getVarint s = some (n, r)) : r.length < s.length := by
  unfold getVarint at h
  split at h
  · next n' r' h' =>
    split at h
    · simp only [Option.some.injEq, Prod.mk.injEq] at h
      rw [← h.2]; exact getVarintN_len _ _ _ _ h'
    · cases h
  · cases h

theorem getFixed_len : ∀ (k : Nat) (s : List UInt8) (n : Nat) (r : List UInt8), getFixed k s = some (n, r) → r.length ≤ s.length
  | 0, s, n, r, h => by simp [getFixed] at h; rw [h.2]
  | k + 1, [], n, r, h => by simp [getFixed] at h
  | k + 1, b :: s, n, r, h => by
    simp only [getFixed] at h
    cases hg : getFixed k s with
    | none => simp [hg] at h
    | some p =>
      obtain ⟨m, r'⟩ := p
      simp only [hg, Option.map_some, Option.some.injEq, Prod.mk.injEq] at h
      have := getFixed_len k s m r' hg
      rw [← h.2]; simp; omega

theorem readWireVal_len {wt : Nat} {s r : List UInt8} {v : WireVal} (h : readWireVal wt s = some (v, r)) : r.length ≤ s.length := by
  unfold readWireVal at h
  split at h
  · cases hg : getVarint s with
    | none => simp [hg] at h
    | some p =>
      simp only [hg, Option.map_some, Option.some.injEq, Prod.mk.injEq] at h
      have := getVarint_len (n := p.1) (r := p.2) hg
      rw [← h.2]; omega
  split at h
  · cases hg : getFixed 8 s with
    | none => simp [hg] at h
    | some p =>
      simp only [hg, Option.map_some, Option.some.injEq, Prod.mk.injEq] at h
      have := getFixed_len 8 s p.1 p.2 hg
      rw [← h.2]; omega
  split at h
  · split at h
    · next n r' h' =>
      split at h
      · simp only [Option.some.injEq, Prod.mk.injEq] at h
        have := getVarint_len h'
        rw [← h.2]; simp; omega
      · cases h
    · cases h
  split at h
  · cases hg : getFixed 4 s with
    | none => simp [hg] at h
    | some p =>
      simp only [hg, Option.map_some, Option.some.injEq, Prod.mk.injEq] at h
      have := getFixed_len 4 s p.1 p.2 hg
      rw [← h.2]; omega
  · cases h

theorem parseN_fuel : ∀ (n m : Nat) (s : List UInt8), s.length ≤ n → s.length ≤ m → parseFieldsN n s = parseFieldsN m s
  | n, m, [], _, _ => by cases n <;> cases m <;> rfl
  | 0, _, _ :: _, h, _ => by simp at h
  | _, 0, _ :: _, _, h => by simp at h
  | n + 1, m + 1, b :: s, hn, hm => by
    simp only [parseFieldsN]
    cases hg : getVarint (b :: s) with
    | none => rfl
    | some p =>
      obtain ⟨t, r⟩ := p
      have h1 := getVarint_len hg
      simp only
      cases hr : readWireVal (t % 8) r with
      | none => rfl
      | some q =>
        obtain ⟨v, r'⟩ := q
        have h2 := readWireVal_len hr
        simp only [List.length_cons] at hn hm h1
        simp only [parseN_fuel n m r' (by omega) (by omega)]

theorem encFields_append : ∀ (a b : List (Nat × WireVal)), encFields (a ++ b) = encFields a ++ encFields b
  | [], b => rfl
  | (k, v) :: a, b => by simp [encFields, encFields_append a b]

theorem encFields_len (fs : List (Nat × WireVal)) : fs.length ≤ (encFields fs).length := by
  induction fs with
  | nil => simp
  | cons f fs ih =>
    obtain ⟨k, v⟩ := f
    have := putVarint_pos (k * 8 + v.wireType)
    simp only [encFields, List.length_append, List.length_cons]
    omega

theorem parse_enc_append (fs : List (Nat × WireVal)) (s : List UInt8) (h : ∀ f ∈ fs, FieldOk f) :
    parseFields (encFields fs ++ s) = (parseFields s).map (fs ++ ·) := by
  unfold parseFields
  have hl := encFields_len fs
  rw [parseN_fuel _ (((encFields fs).length - fs.length + s.length) + fs.length) _ (Nat.le_refl _)
    (by simp only [List.length_append]; omega), parseN_enc fs s _ h]
  rw [parseN_fuel _ s.length s (by omega) (Nat.le_refl _)]

theorem parse_enc (fs : List (Nat × WireVal)) (h : ∀ f ∈ fs, FieldOk f) : parseFields (encFields fs) = some fs := by
  have := parse_enc_append fs [] h
  rw [List.append_nil] at this
  rw [this]
  simp [parseFields, parseFieldsN]

theorem bytes_len {fs : List (Nat × WireVal)} {k : Nat} {bs : List UInt8} (h : (k, WireVal.bytes bs) ∈ fs) :
    bs.length ≤ (encFields fs).length := by
  induction fs with
  | nil => simp at h
  | cons f fs ih =>
    obtain ⟨k', v⟩ := f
    simp only [encFields, List.length_append]
    rcases List.mem_cons.1 h with h | h
    · cases h
      simp only [WireVal.body, List.length_append]; omega
    · have := ih h; omega

theorem fieldOk_of {fs : List (Nat × WireVal)} (h : ∀ f ∈ fs, FieldOk' f) (hl : (encFields fs).length < 2 ^ 64) :
    ∀ f ∈ fs, FieldOk f := by
  rintro ⟨k, v⟩ hf
  have h1 := h _ hf
  refine ⟨h1.1, ?_⟩
  cases v with
  | bytes bs => exact Nat.lt_of_le_of_lt (bytes_len hf) hl
  | _ => exact h1.2

/-! ## Steps -/

theorem stepAll_append {α : Type} (step : α → Nat → WireVal → Option α) : ∀ (a : List (Nat × WireVal)) (b : List (Nat × WireVal)) (z : α),
    stepAll step z (a ++ b) = (stepAll step z a).bind (stepAll step · b)
  | [], b, z => rfl
  | (k, v) :: a, b, z => by
    simp only [List.cons_append, stepAll]
    cases step z k v with
    | none => rfl
    | some z' => exact stepAll_append step a b z'

theorem merge_enc {α : Type} (p : Proto α) (z : α) (fs : List (Nat × WireVal)) (h : ∀ f ∈ fs, FieldOk' f)
    (hl : (encFields fs).length < 2 ^ 64) : p.merge z (encFields fs) = stepAll p.step z fs := by
  unfold Proto.merge
  rw [parse_enc fs (fieldOk_of h hl)]
  rfl

theorem stepAll_then {α : Type} {step : α → Nat → WireVal → Option α} {a b : List (Nat × WireVal)} {z y : α} {r : Option α}
    (h1 : stepAll step z a = some y) (h2 : stepAll step y b = r) : stepAll step z (a ++ b) = r := by
  rw [stepAll_append, h1]; exact h2

theorem stepAll_opt {α : Type} {step : α → Nat → WireVal → Option α} {z y : α} {zero : Bool} {k : Nat} {v : WireVal}
    (h1 : zero = true → z = y) (h2 : step z k v = some y) : stepAll step z (optField zero k v) = some y := by
  unfold optField
  split
  · next h => simp [stepAll, h1 h]
  · simp [stepAll, h2]

/-! ## Text and numbers -/

theorem utf8_read (s : Str) : utf8Text (utf8Bytes s) = some s := by
  have h : ByteArray.mk (utf8Bytes s).toArray = s.utf8Encode := by
    unfold utf8Bytes List.utf8Encode
    apply ByteArray.ext
    simp
  unfold utf8Text
  rw [h, List.utf8Decode?_utf8Encode]
  simp

theorem wrap_asUint {n : Int} (h : FitsInt64 n) : wrap64 (asUint64 n) = n := by
  unfold FitsInt64 at h
  unfold wrap64 asUint64
  omega

theorem asUint_lt (n : Int) : asUint64 n < 2 ^ 64 := by unfold asUint64; omega

theorem f64Bits_lt {x : F64} (h : Binary64 x) : f64Bits x < 2 ^ 64 := by
  cases x with
  | nan => simp only [f64Bits]; omega
  | inf neg => simp only [f64Bits]; split <;> omega
  | fin neg m e =>
    simp only [Binary64] at h
    simp only [f64Bits]
    rcases h with ⟨h, h'⟩ | ⟨h1, h2, h3, h4, h5⟩
    · subst h; split <;> simp
    · split <;> split <;> omega

theorem f64_read {x : F64} (h : Binary64 x) : f64OfBits (f64Bits x) = x := by
  cases x with
  | nan => decide
  | inf neg => cases neg <;> decide
  | fin neg m e =>
    simp only [Binary64] at h
    rcases h with ⟨h, h'⟩ | ⟨h1, h2, h3, h4, h5⟩
    · subst h; subst h'; cases neg <;> decide
    · simp only [f64Bits]
      generalize hs : (if neg then 2 ^ 63 else 0 : Nat) = s
      have hs' : s = 0 ∧ neg = false ∨ s = 2 ^ 63 ∧ neg = true := by
        cases neg with
        | false => exact Or.inl ⟨hs.symm.trans (if_neg Bool.false_ne_true), rfl⟩
        | true => exact Or.inr ⟨hs.symm.trans (if_pos rfl), rfl⟩
      by_cases hm : m < 2 ^ 52
      · rw [if_pos hm]
        have he : e = -1074 := by omega
        unfold f64OfBits
        have e1 : (s + m) / 2 ^ 52 % 2048 = 0 := by omega
        have e2 : (s + m) % 2 ^ 52 = m := by omega
        have e3 : decide (2 ^ 63 ≤ s + m) = neg := by
          rcases hs' with ⟨a, b⟩ | ⟨a, b⟩ <;> rw [b] <;> simp <;> omega
        simp only [e1, e2, e3]
        rw [if_neg (by decide), if_pos trivial, if_neg (by omega), he]
      · rw [if_neg hm]
        obtain ⟨q, hq⟩ : ∃ q : Nat, (e + 1075).toNat = q := ⟨_, rfl⟩
        have hq' : (q : Int) = e + 1075 := by omega
        rw [hq]
        unfold f64OfBits
        have e1 : (s + (q * 2 ^ 52 + (m - 2 ^ 52))) / 2 ^ 52 % 2048 = q := by omega
        have e2 : (s + (q * 2 ^ 52 + (m - 2 ^ 52))) % 2 ^ 52 = m - 2 ^ 52 := by omega
        have e3 : decide (2 ^ 63 ≤ s + (q * 2 ^ 52 + (m - 2 ^ 52))) = neg := by
          rcases hs' with ⟨a, b⟩ | ⟨a, b⟩ <;> rw [b] <;> simp <;> omega
        simp only [e1, e2, e3]
        rw [if_neg (by omega), if_neg (by omega)]
        rw [show 2 ^ 52 + (m - 2 ^ 52) = m by omega, show (q : Int) - 1075 = e by omega]

theorem f64Bits_zero {x : F64} (h : Binary64 x) (h0 : f64Bits x = 0) : x = .fin false 0 0 := by
  have := f64_read h
  rw [h0] at this
  rw [← this]; decide

/-! ## Single fields -/

section Single
variable {α : Type} {step : α → Nat → WireVal → Option α} {z : α} {k : Nat}

theorem step_int {n : Int} (f : Int → α) (hn : FitsInt64 n) (hs : ∀ v, step z k v = onInt z v f) (h0 : z = f 0) :
    stepAll step z (intField k n) = some (f n) := by
  apply stepAll_opt
  · intro h; have : n = 0 := by simpa using h
    rw [this]; exact h0
  · rw [hs]; simp only [onInt]; rw [wrap_asUint hn]

theorem step_uint {n : Nat} (f : Nat → α) (hs : ∀ v, step z k v = onUint z v f) (h0 : z = f 0) :
    stepAll step z (uintField k n) = some (f n) := by
  apply stepAll_opt
  · intro h; have : n = 0 := by simpa using h
    rw [this]; exact h0
  · rw [hs]; rfl

theorem step_bool {b : Bool} (f : Bool → α) (hs : ∀ v, step z k v = onBool z v f) (h0 : z = f false) :
    stepAll step z (boolField k b) = some (f b) := by
  cases b with
  | false => simp [boolField, optField, stepAll, h0.symm]
  | true => simp [boolField, optField, stepAll, hs, onBool]

theorem step_str {s : Str} (f : Str → α) (hs : ∀ v, step z k v = onText z v f) (h0 : z = f []) :
    stepAll step z (strField k s) = some (f s) := by
  apply stepAll_opt
  · intro h; have : s = [] := by simpa using h
    rw [this]; exact h0
  · rw [hs]; simp only [onText]; rw [utf8_read]; rfl

theorem step_float {x : F64} (f : F64 → α) (hx : Binary64 x) (hs : ∀ v, step z k v = onFloat z v f) (h0 : z = f (.fin false 0 0)) :
    stepAll step z (floatField k x) = some (f x) := by
  apply stepAll_opt
  · intro h; rw [f64Bits_zero hx (by simpa using h)]; exact h0
  · rw [hs]; simp only [onFloat]; rw [f64_read hx]

end Single

theorem ok_opt {zero : Bool} {k : Nat} {v : WireVal} (h : FieldOk' (k, v)) : ∀ f ∈ optField zero k v, FieldOk' f := by
  unfold optField
  split
  · simp
  · simpa using h

theorem ok_int {k : Nat} {n : Int} (h : k < 2 ^ 60) : ∀ f ∈ intField k n, FieldOk' f := ok_opt ⟨h, asUint_lt n⟩
theorem ok_uint {k n : Nat} (h : k < 2 ^ 60) (hn : n < 2 ^ 64) : ∀ f ∈ uintField k n, FieldOk' f := ok_opt ⟨h, hn⟩
theorem ok_bool {k : Nat} {b : Bool} (h : k < 2 ^ 60) : ∀ f ∈ boolField k b, FieldOk' f := ok_opt ⟨h, by simp⟩
theorem ok_str {k : Nat} {s : Str} (h : k < 2 ^ 60) : ∀ f ∈ strField k s, FieldOk' f := ok_opt ⟨h, trivial⟩
theorem ok_float {k : Nat} {x : F64} (h : k < 2 ^ 60) (hx : Binary64 x) : ∀ f ∈ floatField k x, FieldOk' f := ok_opt ⟨h, f64Bits_lt hx⟩
theorem ok_one {k : Nat} {bs : List UInt8} (h : k < 2 ^ 60) : ∀ f ∈ [(k, WireVal.bytes bs)], FieldOk' f := by
  intro f hf
  rw [List.mem_singleton] at hf
  subst hf
  exact ⟨h, trivial⟩
theorem ok_map {α : Type} {k : Nat} {val : α → List UInt8} {m : List (Str × α)} (h : k < 2 ^ 60) : ∀ f ∈ mapFields k val m, FieldOk' f := by
  intro f hf
  obtain ⟨kv, _, rfl⟩ := List.mem_map.1 hf
  exact ⟨h, trivial⟩
theorem ok_list {α : Type} {k : Nat} {val : α → List UInt8} {xs : List α} (h : k < 2 ^ 60) : ∀ f ∈ listFields k val xs, FieldOk' f := by
  intro f hf
  obtain ⟨kv, _, rfl⟩ := List.mem_map.1 hf
  exact ⟨h, trivial⟩
theorem ok_sub {α : Type} {k : Nat} {val : α → List UInt8} {x : Option α} (h : k < 2 ^ 60) : ∀ f ∈ subField k val x, FieldOk' f := by
  cases x with
  | none => simp [subField]
  | some y => exact ok_one h
theorem ok_app {a b : List (Nat × WireVal)} (h1 : ∀ f ∈ a, FieldOk' f) (h2 : ∀ f ∈ b, FieldOk' f) : ∀ f ∈ a ++ b, FieldOk' f := by
  intro f hf
  rcases List.mem_append.1 hf with h | h
  · exact h1 f h
  · exact h2 f h

/-! ## What a message arrives as -/

/-- A value that is written arrives as another. -/
def ArrivesAs {α : Type} (p : Proto α) (x' x : α) : Prop :=
  (∀ f ∈ p.fields x', FieldOk' f) ∧ ((p.encode x').length < 2 ^ 64 → stepAll p.step p.zero (p.fields x') = some x)

theorem ArrivesAs.merge {α : Type} {p : Proto α} {x' x : α} (h : ArrivesAs p x' x) (hl : (p.encode x').length < 2 ^ 64) :
    p.merge p.zero (p.encode x') = some x := by
  unfold Proto.encode
  rw [merge_enc p _ _ h.1 hl]
  exact h.2 hl

theorem ArrivesAs.decode {α : Type} {p : Proto α} {x' x : α} (h : ArrivesAs p x' x) (hl : (p.encode x').length < 2 ^ 64) :
    p.decode (p.encode x') = some x := h.merge hl

/-! ## Lists -/

theorem step_list {α β : Type} {step : α → Nat → WireVal → Option α} {k : Nat} {p : Proto β} (get : α → List β) (set : α → List β → α)
    (hs : ∀ z bs, step z k (.bytes bs) = (p.decode bs).map fun x => set z (get z ++ [x]))
    (hgs : ∀ z m, get (set z m) = m) (hss : ∀ z m m', set (set z m) m' = set z m') (hsg : ∀ z, set z (get z) = z) :
    ∀ (xs' xs : List β) (z : α), List.Forall₂ (ArrivesAs p) xs' xs → (∀ x ∈ xs', (p.encode x).length < 2 ^ 64) →
      stepAll step z (listFields k p.encode xs') = some (set z (get z ++ xs))
  | [], _, z, .nil, _ => by simp [listFields, stepAll, hsg]
  | x' :: xs', _, z, .cons (b := x) (l₂ := xs) h1 h2, hl => by
    have ih := step_list get set hs hgs hss hsg xs' xs (set z (get z ++ [x])) h2 fun y hy => hl y (List.mem_cons_of_mem _ hy)
    simp only [listFields, List.map_cons, stepAll]
    rw [hs, h1.decode (hl x' (List.mem_cons_self ..))]
    simp only [Option.map_some]
    rw [listFields] at ih
    rw [ih, hss, hgs]
    simp

/-! ## Maps -/

theorem keyBefore_iff (a b : Str) : keyBefore a b = true ↔ a < b := by unfold keyBefore; simp

theorem setKey_mem {α : Type} {k : Str} {v : α} {m : List (Str × α)} {p : Str × α} (h : p ∈ setKey k v m) : p = (k, v) ∨ p ∈ m := by
  induction m with
  | nil => simpa [setKey] using h
  | cons q m ih =>
    obtain ⟨k', v'⟩ := q
    simp only [setKey] at h
    split at h
    · simpa using h
    · split at h
      · rcases List.mem_cons.1 h with h | h
        · exact Or.inl h
        · exact Or.inr (List.mem_cons_of_mem _ h)
      · rcases List.mem_cons.1 h with h | h
        · exact Or.inr (by rw [h]; exact List.mem_cons_self ..)
        · rcases ih h with h | h
          · exact Or.inl h
          · exact Or.inr (List.mem_cons_of_mem _ h)

theorem setKey_perm {α : Type} (k : Str) (v : α) (m : List (Str × α)) (h : ∀ p ∈ m, p.1 ≠ k) : (setKey k v m).Perm ((k, v) :: m) := by
  induction m with
  | nil => exact List.Perm.refl _
  | cons q m ih =>
    obtain ⟨k', v'⟩ := q
    have hk : k ≠ k' := fun e => h (k', v') (List.mem_cons_self ..) e.symm
    simp only [setKey]
    split
    · exact List.Perm.refl _
    · exact ((ih fun p hp => h p (List.mem_cons_of_mem _ hp)).cons _).trans (List.Perm.swap ..)

theorem setKey_order {α : Type} (k : Str) (v : α) (m : List (Str × α)) (h : KeysInOrder m) : KeysInOrder (setKey k v m) := by
  induction m with
  | nil => simp [setKey, KeysInOrder]
  | cons q m ih =>
    obtain ⟨k', v'⟩ := q
    have h1 := List.pairwise_cons.1 h
    simp only [setKey]
    split
    · next hb =>
      have hb := (keyBefore_iff _ _).1 hb
      refine List.pairwise_cons.2 ⟨?_, h⟩
      intro p hp
      rcases List.mem_cons.1 hp with e | hp
      · rw [e]; exact hb
      · exact List.lt_trans hb (h1.1 p hp)
    · next hb =>
      split
      · next e => subst e; exact List.pairwise_cons.2 ⟨h1.1, h1.2⟩
      · next e =>
        refine List.pairwise_cons.2 ⟨?_, ih h1.2⟩
        intro p hp
        rcases setKey_mem hp with e' | hp
        · rw [e']
          have hb' : ¬ k < k' := fun h => hb ((keyBefore_iff _ _).2 h)
          rcases List.le_iff_lt_or_eq.1 (List.not_lt.1 hb') with h | h
          · exact h
          · exact absurd h.symm e
        · exact h1.1 p hp

/-- Entries put one by one into a map. -/
def putAll {α : Type} (m : List (Str × α)) (es : List (Str × α)) : List (Str × α) := es.foldl (fun m p => setKey p.1 p.2 m) m

theorem putAll_spec {α : Type} : ∀ (es m : List (Str × α)), KeysInOrder m → (es.map (·.1)).Nodup → (∀ p ∈ m, ∀ q ∈ es, p.1 ≠ q.1) →
    KeysInOrder (putAll m es) ∧ (putAll m es).Perm (m ++ es)
  | [], m, h, _, _ => ⟨h, by simp [putAll]⟩
  | e :: es, m, h, hn, hd => by
    have hn' := List.nodup_cons.1 (List.map_cons (f := fun p : Str × α => p.1) ▸ hn)
    have h1 : ∀ p ∈ m, p.1 ≠ e.1 := fun p hp => hd p hp e (List.mem_cons_self ..)
    have ih := putAll_spec es (setKey e.1 e.2 m) (setKey_order _ _ _ h) hn'.2 (by
      intro p hp q hq
      rcases setKey_mem hp with e' | hp
      · rw [e']
        intro he
        exact hn'.1 (he ▸ List.mem_map.2 ⟨q, hq, rfl⟩)
      · exact hd p hp q (List.mem_cons_of_mem _ hq))
    refine ⟨ih.1, ih.2.trans ?_⟩
    refine ((setKey_perm e.1 e.2 m h1).append_right es).trans ?_
    exact (List.perm_middle (a := e) (l₁ := m) (l₂ := es)).symm

theorem putAll_perm {α : Type} {m' m : List (Str × α)} (hm : KeysInOrder m) (hp : m'.Perm m) : putAll [] m' = m := by
  have hnd : (m.map (·.1)).Nodup := by
    rw [List.Nodup, List.pairwise_map]
    refine hm.imp ?_
    intro a b h e
    rw [e] at h
    exact List.lt_irrefl _ h
  have h := putAll_spec m' [] List.Pairwise.nil ((hp.map (·.1)).nodup_iff.2 hnd) (by simp)
  refine List.Perm.eq_of_pairwise ?_ h.1 hm (h.2.trans (by simpa using hp))
  intro a b _ _ h1 h2
  exact absurd h2 (List.lt_asymm h1)

theorem readEntry_enc {α : Type} {zero : α} {val : α → List UInt8 → Option α} {k : Str} {bs : List UInt8} {x : α} (m : List (Str × α))
    (hv : val zero bs = some x) (hl : (encFields [(1, .bytes (utf8Bytes k)), (2, .bytes bs)]).length < 2 ^ 64) :
    readEntry zero val m (encFields [(1, .bytes (utf8Bytes k)), (2, .bytes bs)]) = some (setKey k x m) := by
  unfold readEntry
  rw [parse_enc _ (fieldOk_of ?_ hl)]
  · have h1 : entryStep val ([], zero) 1 (.bytes (utf8Bytes k)) = some (k, zero) := by
      simp [entryStep, onText, utf8_read]
    have h2 : entryStep val (k, zero) 2 (.bytes bs) = some (k, x) := by
      simp [entryStep, onBytes, hv]
    simp [stepAll, h1, h2]
  · intro f hf
    simp only [List.mem_cons, List.not_mem_nil, or_false] at hf
    rcases hf with h | h <;> subst h <;> exact ⟨by omega, trivial⟩

theorem step_map {α β : Type} {step : α → Nat → WireVal → Option α} {k : Nat} {enc : β → List UInt8} {zero : β}
    {val : β → List UInt8 → Option β} (get : α → List (Str × β)) (set : α → List (Str × β) → α)
    (hs : ∀ z bs, step z k (.bytes bs) = (readEntry zero val (get z) bs).map (set z))
    (hgs : ∀ z m, get (set z m) = m) (hss : ∀ z m m', set (set z m) m' = set z m') (hsg : ∀ z, set z (get z) = z) :
    ∀ (es : List (Str × β)) (z : α), (∀ p ∈ es, (enc p.2).length < 2 ^ 64 → val zero (enc p.2) = some p.2) →
      (∀ f ∈ mapFields k enc es, ∀ bs, f.2 = .bytes bs → bs.length < 2 ^ 64) →
      stepAll step z (mapFields k enc es) = some (set z (putAll (get z) es))
  | [], z, _, _ => by simp [mapFields, stepAll, putAll, hsg]
  | e :: es, z, hv, hl => by
    have hl1 := hl (k, .bytes (encFields [(1, .bytes (utf8Bytes e.1)), (2, .bytes (enc e.2))])) (by simp [mapFields]) _ rfl
    have hv1 := hv e (List.mem_cons_self ..) (Nat.lt_of_le_of_lt (bytes_len (k := 2) (by simp)) hl1)
    have ih := step_map get set hs hgs hss hsg es (set z (setKey e.1 e.2 (get z))) (fun p hp => hv p (List.mem_cons_of_mem _ hp))
      fun f hf => hl f (by simp only [mapFields, List.map_cons]; exact List.mem_cons_of_mem _ hf)
    simp only [mapFields, List.map_cons, stepAll]
    rw [hs, readEntry_enc _ hv1 hl1]
    simp only [Option.map_some]
    rw [mapFields] at ih
    rw [ih, hss, hgs]
    rfl

/-- A map that is written in any order. -/
theorem step_map_perm {α β : Type} {step : α → Nat → WireVal → Option α} {k : Nat} {enc : β → List UInt8} {zero : β}
    {val : β → List UInt8 → Option β} (get : α → List (Str × β)) (set : α → List (Str × β) → α)
    (hs : ∀ z bs, step z k (.bytes bs) = (readEntry zero val (get z) bs).map (set z))
    (hgs : ∀ z m, get (set z m) = m) (hss : ∀ z m m', set (set z m) m' = set z m') (hsg : ∀ z, set z (get z) = z)
    {m' m : List (Str × β)} (z : α) (h0 : get z = []) (hm : KeysInOrder m) (hp : SameMap m' m)
    (hv : ∀ p ∈ m, (enc p.2).length < 2 ^ 64 → val zero (enc p.2) = some p.2)
    (hl : ∀ f ∈ mapFields k enc m', ∀ bs, f.2 = .bytes bs → bs.length < 2 ^ 64) :
    stepAll step z (mapFields k enc m') = some (set z m) := by
  rw [step_map get set hs hgs hss hsg m' z (fun p hp' => hv p (hp.subset hp')) hl, h0, putAll_perm hm hp]

end LogCache
