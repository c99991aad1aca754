import Verif.Model.Url
import Verif.Proof.Protobuf
import Mathlib.Data.List.Perm.Basic

/-! # Lemmas about request targets -/

namespace LogCache

theorem unHex_upperHex (n : Nat) (h : n < 16) : unHex (upperHex n) = some n := by
  have : ∀ n : Fin 16, unHex (upperHex n.1) = some n.1 := by decide +kernel
  exact this ⟨n, h⟩

theorem byte_parts (b : UInt8) : UInt8.ofNat (16 * (b.toNat / 16) + b.toNat % 16) = b := by
  rw [Nat.div_add_mod]
  exact UInt8.ofNat_toNat

theorem unescape_percent (plus : Bool) (b : UInt8) (s t : List UInt8) (h : urlUnescape plus s = some t) :
    urlUnescape plus (percent b ++ s) = some (b :: t) := by
  have hb : b.toNat < 256 := b.toNat_lt
  show urlUnescape plus (37 :: upperHex (b.toNat / 16) :: upperHex (b.toNat % 16) :: s) = _
  rw [urlUnescape, if_pos rfl]
  simp only [unHex_upperHex _ (show b.toNat / 16 < 16 by omega), unHex_upperHex _ (show b.toNat % 16 < 16 by omega), h,
    byte_parts]

theorem unescape_plain (plus : Bool) (b : UInt8) (s t : List UInt8) (h : urlUnescape plus s = some t)
    (h1 : b ≠ 37) (h2 : plus = true → b ≠ 43) : urlUnescape plus (b :: s) = some (b :: t) := by
  rw [urlUnescape.eq_def]
  simp only [if_neg h1, h, Option.map_some]
  rw [if_neg (fun hh => h2 hh.1 hh.2)]

theorem urlPlain_ne {b : UInt8} (h : urlPlain b = true) :
    b ≠ 37 ∧ b ≠ 43 ∧ b ≠ 38 ∧ b ≠ 59 ∧ b ≠ 61 ∧ b ≠ 63 ∧ b ≠ 35 ∧ 32 < b.toNat ∧ b.toNat < 127 := by
  have : ∀ n : Fin 256, urlPlain (UInt8.ofNat n.1) = true → (UInt8.ofNat n.1) ≠ 37 ∧ (UInt8.ofNat n.1) ≠ 43 ∧
      (UInt8.ofNat n.1) ≠ 38 ∧ (UInt8.ofNat n.1) ≠ 59 ∧ (UInt8.ofNat n.1) ≠ 61 ∧ (UInt8.ofNat n.1) ≠ 63 ∧
      (UInt8.ofNat n.1) ≠ 35 ∧ 32 < (UInt8.ofNat n.1).toNat ∧ (UInt8.ofNat n.1).toNat < 127 := by decide +kernel
  have := this ⟨b.toNat, b.toNat_lt⟩
  simp only [UInt8.ofNat_toNat] at this
  exact this h

theorem pathPlain_ne {b : UInt8} (h : pathPlain b = true) :
    b ≠ 37 ∧ b ≠ 63 ∧ b ≠ 35 ∧ 32 < b.toNat ∧ b.toNat < 127 := by
  have : ∀ n : Fin 256, pathPlain (UInt8.ofNat n.1) = true → (UInt8.ofNat n.1) ≠ 37 ∧
      (UInt8.ofNat n.1) ≠ 63 ∧
      (UInt8.ofNat n.1) ≠ 35 ∧ 32 < (UInt8.ofNat n.1).toNat ∧ (UInt8.ofNat n.1).toNat < 127 := by decide +kernel
  have := this ⟨b.toNat, b.toNat_lt⟩
  simp only [UInt8.ofNat_toNat] at this
  exact this h

/-- The bytes of an escape are digits and letters after a percent sign. -/
theorem percent_mem {b x : UInt8} (h : x ∈ percent b) : x = 37 ∨ urlPlain x = true := by
  have hd : ∀ n : Fin 16, urlPlain (upperHex n.1) = true := by decide +kernel
  have hb : b.toNat < 256 := b.toNat_lt
  simp only [percent, List.mem_cons, List.not_mem_nil, or_false] at h
  rcases h with rfl | rfl | rfl
  · exact Or.inl rfl
  · exact Or.inr (hd ⟨b.toNat / 16, by omega⟩)
  · exact Or.inr (hd ⟨b.toNat % 16, by omega⟩)

theorem query_unescape (s : List UInt8) : urlUnescape true (queryEscape s) = some s := by
  induction s with
  | nil => rfl
  | cons b t ih =>
    rw [queryEscape, List.flatMap_cons]
    change urlUnescape true (_ ++ queryEscape t) = _
    by_cases h1 : b = 32
    · subst h1
      rw [if_pos rfl]
      show urlUnescape true (43 :: queryEscape t) = _
      rw [urlUnescape.eq_def]
      simp [ih]
    · rw [if_neg h1]
      by_cases h2 : urlPlain b = true
      · rw [if_pos h2]
        exact unescape_plain true b _ _ ih (urlPlain_ne h2).1 (fun _ => (urlPlain_ne h2).2.1)
      · rw [if_neg h2]
        exact unescape_percent true b _ _ ih

theorem path_unescape (s : List UInt8) : urlUnescape false (pathEscape s) = some s := by
  induction s with
  | nil => rfl
  | cons b t ih =>
    rw [pathEscape, List.flatMap_cons]
    change urlUnescape false (_ ++ pathEscape t) = _
    by_cases h2 : pathPlain b = true
    · rw [if_pos h2]
      exact unescape_plain false b _ _ ih (pathPlain_ne h2).1 (fun h => by cases h)
    · rw [if_neg h2]
      exact unescape_percent false b _ _ ih

/-- Bytes an escaped query component may hold. -/
theorem queryEscape_mem {s : List UInt8} {x : UInt8} (h : x ∈ queryEscape s) :
    x = 43 ∨ x = 37 ∨ urlPlain x = true := by
  obtain ⟨b, _, h⟩ := List.mem_flatMap.1 h
  split at h
  · exact Or.inl (List.mem_singleton.1 h)
  · split at h
    · next h2 => exact Or.inr (Or.inr (List.mem_singleton.1 h ▸ h2))
    · exact Or.inr (percent_mem h)

theorem pathEscape_mem {s : List UInt8} {x : UInt8} (h : x ∈ pathEscape s) : x = 37 ∨ pathPlain x = true := by
  obtain ⟨b, _, h⟩ := List.mem_flatMap.1 h
  split at h
  · next h2 => exact Or.inr (List.mem_singleton.1 h ▸ h2)
  · rcases percent_mem h with h | h
    · exact Or.inl h
    · right
      unfold pathPlain
      simp [h]

theorem cutAt_append {c : UInt8} {a b : List UInt8} (h : c ∉ a) : cutAt c (a ++ c :: b) = (a, some b) := by
  induction a with
  | nil => simp [cutAt]
  | cons x t ih =>
    rw [List.cons_append, cutAt, if_neg (fun h' => h (by rw [h']; exact List.mem_cons_self))]
    rw [ih (fun h' => h (List.mem_cons_of_mem _ h'))]

theorem cutAt_none {c : UInt8} {a : List UInt8} (h : c ∉ a) : cutAt c a = (a, none) := by
  induction a with
  | nil => rfl
  | cons x t ih =>
    rw [cutAt, if_neg (fun h' => h (by rw [h']; exact List.mem_cons_self))]
    rw [ih (fun h' => h (List.mem_cons_of_mem _ h'))]

/-! ## Queries -/

theorem cutAmp_ne (s : List UInt8) : cutAmp s ≠ [] := by
  cases s with
  | nil => simp [cutAmp]
  | cons b t =>
    rw [cutAmp]
    split
    · simp
    · split <;> simp

theorem cutAmp_whole {a : List UInt8} (h1 : 38 ∉ a) (h2 : 59 ∉ a) : cutAmp a = [a] := by
  induction a with
  | nil => rfl
  | cons x t ih =>
    rw [cutAmp, if_neg, ih (fun h => h1 (List.mem_cons_of_mem _ h)) (fun h => h2 (List.mem_cons_of_mem _ h))]
    rintro (rfl | rfl)
    · exact h1 List.mem_cons_self
    · exact h2 List.mem_cons_self

theorem cutAmp_append {a b : List UInt8} (h1 : 38 ∉ a) (h2 : 59 ∉ a) : cutAmp (a ++ 38 :: b) = a :: cutAmp b := by
  induction a with
  | nil => simp [cutAmp]
  | cons x t ih =>
    rw [List.cons_append, cutAmp, if_neg,
      ih (fun h => h1 (List.mem_cons_of_mem _ h)) (fun h => h2 (List.mem_cons_of_mem _ h))]
    rintro (rfl | rfl)
    · exact h1 List.mem_cons_self
    · exact h2 List.mem_cons_self

theorem cutAmp_join {ps : List (List UInt8)} (hne : ps ≠ []) (h : ∀ p ∈ ps, 38 ∉ p ∧ 59 ∉ p) :
    cutAmp (joinAmp ps) = ps := by
  induction ps with
  | nil => exact absurd rfl hne
  | cons x t ih =>
    cases t with
    | nil => exact cutAmp_whole (h x List.mem_cons_self).1 (h x List.mem_cons_self).2
    | cons y ys =>
      rw [joinAmp, cutAmp_append (h x List.mem_cons_self).1 (h x List.mem_cons_self).2]
      rw [ih (by simp) (fun p hp => h p (List.mem_cons_of_mem _ hp))]

/-- One pair as it is written. -/
def writtenPair (kv : List UInt8 × List UInt8) : List UInt8 := queryEscape kv.1 ++ 61 :: queryEscape kv.2

theorem escape_not_mem {s : List UInt8} {x : UInt8} (h1 : x ≠ 43) (h2 : x ≠ 37) (h3 : urlPlain x = false) :
    x ∉ queryEscape s := by
  intro h
  rcases queryEscape_mem h with h | h | h
  · exact h1 h
  · exact h2 h
  · rw [h3] at h; cases h

theorem writtenPair_clean (kv : List UInt8 × List UInt8) : 38 ∉ writtenPair kv ∧ 59 ∉ writtenPair kv := by
  unfold writtenPair
  constructor <;>
  · rw [List.mem_append, List.mem_cons]
    rintro (h | h | h)
    · exact escape_not_mem (by decide) (by decide) (by decide) h
    · exact absurd h (by decide)
    · exact escape_not_mem (by decide) (by decide) (by decide) h

theorem parsePair_written (kv : List UInt8 × List UInt8) : parsePair (writtenPair kv) = some kv := by
  unfold parsePair
  rw [if_neg (by unfold writtenPair; simp)]
  unfold writtenPair
  rw [cutAt_append (escape_not_mem (by decide) (by decide) (by decide))]
  simp only [query_unescape, Option.getD_some]

/-- All pairs of the parameters. -/
def rawPairs (q : RawValues) : List (List UInt8 × List UInt8) := q.flatMap fun e => e.2.map fun v => (e.1, v)

theorem encodeQuery_eq (q : RawValues) : encodeQuery q = joinAmp ((rawPairs (sortedKeys q)).map writtenPair) := by
  unfold encodeQuery rawPairs
  congr 1
  rw [List.map_flatMap]
  congr 1
  funext e
  simp [writtenPair]

theorem parse_encode (q : RawValues) : parseQuery (encodeQuery q) = (rawPairs (sortedKeys q)).foldl addRaw [] := by
  rw [encodeQuery_eq]
  unfold parseQuery
  generalize rawPairs (sortedKeys q) = ps
  cases ps with
  | nil => rfl
  | cons p t =>
    rw [cutAmp_join (by simp)]
    · rw [List.filterMap_map]
      have : (parsePair ∘ writtenPair) = some := by funext kv; exact parsePair_written kv
      rw [this, List.filterMap_some]
    · intro x hx
      obtain ⟨kv, _, rfl⟩ := List.mem_map.1 hx
      exact writtenPair_clean kv

theorem insertKey_perm (e : List UInt8 × List (List UInt8)) (q : RawValues) : (insertKey e q).Perm (e :: q) := by
  induction q with
  | nil => exact List.Perm.refl _
  | cons f t ih =>
    rw [insertKey]
    split
    · exact List.Perm.refl _
    · exact (ih.cons f).trans (List.Perm.swap _ _ _)

theorem sortedKeys_perm (q : RawValues) : (sortedKeys q).Perm q := by
  induction q with
  | nil => exact List.Perm.refl _
  | cons e t ih => exact (insertKey_perm e _).trans (ih.cons e)

/-- The values of a key among pairs. -/
def valuesOf (k : List UInt8) (ps : List (List UInt8 × List UInt8)) : List (List UInt8) :=
  (ps.filter fun p => decide (p.1 = k)).map Prod.snd

theorem addRaw_lookup (q : RawValues) (kv : List UInt8 × List UInt8) (k : List UInt8) :
    (addRaw q kv).lookup k = if k = kv.1 then some ((q.lookup k).getD [] ++ [kv.2]) else q.lookup k := by
  obtain ⟨a, v⟩ := kv
  induction q with
  | nil =>
    rw [addRaw]
    by_cases h : k = a
    · subst h; simp
    · have : (k == a) = false := by simpa using h
      simp [List.lookup, h, this]
  | cons e t ih =>
    obtain ⟨k', vs⟩ := e
    rw [addRaw]
    by_cases hk : k' = a
    · subst hk
      rw [if_pos rfl]
      by_cases h : k = k'
      · subst h; simp
      · have : (k == k') = false := by simpa using h
        simp [List.lookup, h, this]
    · rw [if_neg hk]
      by_cases h : k = k'
      · subst h
        rw [if_neg hk]; simp
      · have : (k == k') = false := by simpa using h
        simp only [List.lookup, this]
        exact ih

theorem foldl_addRaw_lookup (ps : List (List UInt8 × List UInt8)) (q : RawValues) (k : List UInt8)
    (hq : q.lookup k ≠ some []) :
    (ps.foldl addRaw q).lookup k =
      if (q.lookup k).getD [] ++ valuesOf k ps = [] then none else some ((q.lookup k).getD [] ++ valuesOf k ps) := by
  induction ps generalizing q with
  | nil =>
    simp only [List.foldl_nil, valuesOf, List.filter_nil, List.map_nil, List.append_nil]
    rcases h : q.lookup k with _ | l
    · simp
    · rw [h] at hq
      have : l ≠ [] := fun h' => hq (by rw [h'])
      simp [this]
  | cons p t ih =>
    rw [List.foldl_cons, ih]
    · rw [addRaw_lookup]
      by_cases h : k = p.1
      · subst h
        simp [valuesOf]
      · have h' : ¬ p.1 = k := fun h' => h h'.symm
        have hv : valuesOf k (p :: t) = valuesOf k t := by simp [valuesOf, h']
        rw [if_neg h, hv]
    · rw [addRaw_lookup]
      split
      · simp
      · exact hq

theorem valuesOf_pairs {q : RawValues} (hn : (q.map Prod.fst).Nodup) (k : List UInt8) :
    valuesOf k (rawPairs q) = (q.lookup k).getD [] := by
  induction q with
  | nil => rfl
  | cons e t ih =>
    obtain ⟨a, vs⟩ := e
    have ht := ih (List.nodup_cons.1 hn).2
    have hna := (List.nodup_cons.1 hn).1
    have happ : valuesOf k (rawPairs ((a, vs) :: t)) = valuesOf k (vs.map fun v => (a, v)) ++ valuesOf k (rawPairs t) := by
      simp [valuesOf, rawPairs]
    rw [happ]
    by_cases h : k = a
    · subst h
      have h0 : valuesOf k (rawPairs t) = [] := by
        rw [ht]
        have : t.lookup k = none := by
          rw [List.lookup_eq_none_iff]
          intro p hp
          refine bne_iff_ne.2 fun hpk => ?_
          exact hna (List.mem_map.2 ⟨p, hp, hpk.symm⟩)
        rw [this]; rfl
      have h1 : valuesOf k (vs.map fun v => (k, v)) = vs := by
        simp [valuesOf, List.filter_map, Function.comp_def]
      rw [h0, h1]
      simp
    · have h' : ¬ a = k := fun h' => h h'.symm
      have h1 : valuesOf k (vs.map fun v => (a, v)) = [] := by
        simp [valuesOf, List.filter_map, Function.comp_def, h']
      have : (k == a) = false := by simpa using h
      rw [h1, List.nil_append, ht]
      simp [List.lookup, this]

theorem lookup_perm {q q' : RawValues} (hp : q.Perm q') (hn : (q.map Prod.fst).Nodup) (k : List UInt8) :
    q.lookup k = q'.lookup k := by
  have hn' : (q'.map Prod.fst).Nodup := ((hp.map Prod.fst).nodup_iff).1 hn
  have key : ∀ (q : RawValues), (q.map Prod.fst).Nodup → ∀ vs, q.lookup k = some vs ↔ (k, vs) ∈ q := by
    intro q
    induction q with
    | nil => intro _ vs; simp
    | cons e t ih =>
      intro hn vs
      obtain ⟨a, w⟩ := e
      by_cases h : k = a
      · subst h
        simp only [List.lookup_cons_self, Option.some.injEq, List.mem_cons, Prod.mk.injEq, true_and]
        constructor
        · intro h; exact Or.inl h.symm
        · rintro (h | h)
          · exact h.symm
          · exact absurd (List.mem_map.2 ⟨_, h, rfl⟩) (List.nodup_cons.1 hn).1
      · have : (k == a) = false := by simpa using h
        simp only [List.lookup, this, List.mem_cons, Prod.mk.injEq, h, false_and, false_or]
        exact ih (List.nodup_cons.1 hn).2 vs
  ext vs
  rw [key q hn, key q' hn', hp.mem_iff]

/-- What is read is what was written. -/
theorem parse_encode_lookup {q : RawValues} (hn : (q.map Prod.fst).Nodup) (hv : ∀ e ∈ q, e.2 ≠ []) (k : List UInt8) :
    (parseQuery (encodeQuery q)).lookup k = q.lookup k := by
  have hs := sortedKeys_perm q
  have hn' : ((sortedKeys q).map Prod.fst).Nodup := ((hs.map Prod.fst).nodup_iff).2 hn
  rw [parse_encode, foldl_addRaw_lookup _ _ _ (by simp), valuesOf_pairs hn', lookup_perm hs hn']
  rcases h : q.lookup k with _ | vs
  · simp
  · have : vs ≠ [] := by
      obtain ⟨a, b, hab⟩ : ∃ a, ∃ h : a ∈ q, a.2 = vs := by
        have : ∀ (q : RawValues), q.lookup k = some vs → ∃ a ∈ q, a.2 = vs := by
          intro q
          induction q with
          | nil => intro h; cases h
          | cons e t ih =>
            intro h
            obtain ⟨a, w⟩ := e
            rw [List.lookup] at h
            split at h
            · injection h with h; exact ⟨_, List.mem_cons_self, h⟩
            · obtain ⟨x, hx, he⟩ := ih h; exact ⟨x, List.mem_cons_of_mem _ hx, he⟩
        obtain ⟨a, ha, h'⟩ := this q h
        exact ⟨a, ha, h'⟩
      rw [← hab]
      exact hv a b
    simp [this]

theorem encodeQuery_no {q : RawValues} {x : UInt8} (h1 : x ≠ 43) (h2 : x ≠ 37) (h3 : urlPlain x = false)
    (h4 : x ≠ 38) (h5 : x ≠ 61) : x ∉ encodeQuery q := by
  rw [encodeQuery_eq]
  generalize rawPairs (sortedKeys q) = ps
  have hp : ∀ kv, x ∉ writtenPair kv := by
    intro kv
    unfold writtenPair
    rw [List.mem_append, List.mem_cons]
    rintro (h | h | h)
    · exact escape_not_mem h1 h2 h3 h
    · exact h5 h
    · exact escape_not_mem h1 h2 h3 h
  induction ps with
  | nil => simp [joinAmp]
  | cons p t ih =>
    cases t with
    | nil => exact hp p
    | cons y ys =>
      rw [List.map_cons, List.map_cons, joinAmp, List.mem_append, List.mem_cons]
      rintro (h | h | h)
      · exact hp p h
      · exact h4 h
      · rw [List.map_cons] at ih; exact ih h

theorem readTarget_requestTarget (p : List UInt8) (q : RawValues) :
    readTarget (requestTarget (47 :: p) q) = some (47 :: p, parseQuery (encodeQuery q)) := by
  have hno : (63 : UInt8) ∉ pathEscape (47 :: p) := by
    intro h
    rcases pathEscape_mem h with h | h
    · exact absurd h (by decide)
    · exact (pathPlain_ne h).2.1 rfl
  have hhead : ∃ t, pathEscape (47 :: p) = 47 :: t := ⟨pathEscape p, by
    rw [pathEscape, List.flatMap_cons, if_pos (by decide)]; rfl⟩
  unfold readTarget requestTarget
  obtain ⟨t, ht⟩ := hhead
  rw [if_pos (by rw [ht]; rfl)]
  split
  · next h =>
    rw [List.append_nil, cutAt_none hno]
    simp only [path_unescape, Option.map_some, Option.getD_none, h]
  · rw [cutAt_append hno]
    simp only [path_unescape, Option.map_some, Option.getD_some]

/-! ## Text -/

theorem utf8Bytes_inj {s t : Str} (h : utf8Bytes s = utf8Bytes t) : s = t := by
  have := utf8_read s
  rw [h, utf8_read] at this
  injection this with this
  exact this.symm

theorem rawValues_lookup (q : Values) (k : Str) :
    (rawValues q).lookup (utf8Bytes k) = (q.lookup k).map fun vs => vs.map utf8Bytes := by
  induction q with
  | nil => rfl
  | cons e t ih =>
    obtain ⟨a, vs⟩ := e
    by_cases h : k = a
    · subst h; simp [rawValues]
    · have h1 : (k == a) = false := by simpa using h
      have h2 : (utf8Bytes k == utf8Bytes a) = false := by
        have : utf8Bytes k ≠ utf8Bytes a := fun h' => h (utf8Bytes_inj h')
        simpa using this
      simp only [rawValues, List.map_cons, List.lookup, h1, h2]
      exact ih

theorem textsOf_bytes (l : List Str) : textsOf (l.map utf8Bytes) = some l := by
  induction l with
  | nil => rfl
  | cons a t ih => rw [List.map_cons, textsOf, utf8_read, ih]

/-- Parameters whose keys and values are text can be read as text. -/
theorem textValues_some (r : RawValues) (h : ∀ e ∈ r, (∃ k, e.1 = utf8Bytes k) ∧ ∃ vs : List Str, e.2 = vs.map utf8Bytes) :
    ∃ q, textValues r = some q ∧ rawValues q = r := by
  induction r with
  | nil => exact ⟨[], rfl, rfl⟩
  | cons e t ih =>
    obtain ⟨a, b⟩ := e
    obtain ⟨⟨k, hk⟩, vs, hvs⟩ := h _ List.mem_cons_self
    obtain ⟨q, h1, h2⟩ := ih fun e he => h e (List.mem_cons_of_mem _ he)
    simp only at hk hvs
    subst hk hvs
    refine ⟨(k, vs) :: q, ?_, by rw [← h2]; rfl⟩
    rw [textValues, utf8_read, textsOf_bytes, h1]

theorem addRaw_text {P Q : List UInt8 → Prop} {q : RawValues} {kv : List UInt8 × List UInt8}
    (h : ∀ e ∈ q, P e.1 ∧ ∀ v ∈ e.2, Q v) (hk : P kv.1) (hv : Q kv.2) :
    ∀ e ∈ addRaw q kv, P e.1 ∧ ∀ v ∈ e.2, Q v := by
  obtain ⟨k, v⟩ := kv
  induction q with
  | nil =>
    intro e he
    rw [addRaw, List.mem_singleton] at he
    subst he
    exact ⟨hk, fun x hx => by rw [List.mem_singleton.1 hx]; exact hv⟩
  | cons f t ih =>
    obtain ⟨k', vs⟩ := f
    intro e he
    rw [addRaw] at he
    split at he
    · rcases List.mem_cons.1 he with rfl | he
      · refine ⟨(h _ List.mem_cons_self).1, fun x hx => ?_⟩
        rcases List.mem_append.1 hx with hx | hx
        · exact (h _ List.mem_cons_self).2 x hx
        · rw [List.mem_singleton.1 hx]; exact hv
      · exact h e (List.mem_cons_of_mem _ he)
    · rcases List.mem_cons.1 he with rfl | he
      · exact h _ List.mem_cons_self
      · exact ih (fun e he => h e (List.mem_cons_of_mem _ he)) e he

theorem foldl_addRaw_text {P Q : List UInt8 → Prop} (ps : List (List UInt8 × List UInt8)) {q : RawValues}
    (h : ∀ e ∈ q, P e.1 ∧ ∀ v ∈ e.2, Q v) (hp : ∀ p ∈ ps, P p.1 ∧ Q p.2) :
    ∀ e ∈ ps.foldl addRaw q, P e.1 ∧ ∀ v ∈ e.2, Q v := by
  induction ps generalizing q with
  | nil => exact h
  | cons p t ih =>
    rw [List.foldl_cons]
    exact ih (addRaw_text h (hp p List.mem_cons_self).1 (hp p List.mem_cons_self).2)
      fun x hx => hp x (List.mem_cons_of_mem _ hx)

theorem all_text {l : List (List UInt8)} (h : ∀ v ∈ l, ∃ s, v = utf8Bytes s) : ∃ vs : List Str, l = vs.map utf8Bytes := by
  induction l with
  | nil => exact ⟨[], rfl⟩
  | cons a t ih =>
    obtain ⟨s, hs⟩ := h a List.mem_cons_self
    obtain ⟨vs, hvs⟩ := ih fun v hv => h v (List.mem_cons_of_mem _ hv)
    exact ⟨s :: vs, by rw [List.map_cons, ← hs, ← hvs]⟩

theorem addRaw_keys (q : RawValues) (kv : List UInt8 × List UInt8) (k : List UInt8) :
    k ∈ (addRaw q kv).map Prod.fst ↔ k = kv.1 ∨ k ∈ q.map Prod.fst := by
  obtain ⟨a, v⟩ := kv
  induction q with
  | nil => simp [addRaw]
  | cons e t ih =>
    obtain ⟨k', vs⟩ := e
    rw [addRaw]
    split
    · next h =>
      subst h
      simp only [List.map_cons, List.mem_cons]
      constructor
      · rintro (h | h)
        · exact .inl h
        · exact .inr (.inr h)
      · rintro (h | h | h)
        · exact .inl h
        · exact .inl h
        · exact .inr h
    · simp only [List.map_cons, List.mem_cons, ih]
      constructor
      · rintro (h | h | h)
        · exact .inr (.inl h)
        · exact .inl h
        · exact .inr (.inr h)
      · rintro (h | h | h)
        · exact .inr (.inl h)
        · exact .inl h
        · exact .inr (.inr h)

theorem addRaw_proper {q : RawValues} (hn : (q.map Prod.fst).Nodup) (hv : ∀ e ∈ q, e.2 ≠ [])
    (kv : List UInt8 × List UInt8) : ((addRaw q kv).map Prod.fst).Nodup ∧ ∀ e ∈ addRaw q kv, e.2 ≠ [] := by
  obtain ⟨a, v⟩ := kv
  induction q with
  | nil => simp [addRaw]
  | cons e t ih =>
    obtain ⟨k', vs⟩ := e
    rw [List.map_cons, List.nodup_cons] at hn
    obtain ⟨i1, i2⟩ := ih hn.2 fun e he => hv e (List.mem_cons_of_mem _ he)
    rw [addRaw]
    split
    · refine ⟨?_, fun e he => ?_⟩
      · rw [List.map_cons, List.nodup_cons]
        exact hn
      · rcases List.mem_cons.1 he with rfl | he
        · simp
        · exact hv e (List.mem_cons_of_mem _ he)
    · next h =>
      refine ⟨?_, fun e he => ?_⟩
      · rw [List.map_cons, List.nodup_cons]
        refine ⟨fun hm => ?_, i1⟩
        rcases (addRaw_keys t (a, v) k').1 hm with hm | hm
        · exact h hm
        · exact hn.1 hm
      · rcases List.mem_cons.1 he with rfl | he
        · exact hv _ List.mem_cons_self
        · exact i2 e he

theorem foldl_addRaw_proper (ps : List (List UInt8 × List UInt8)) {q : RawValues} (hn : (q.map Prod.fst).Nodup)
    (hv : ∀ e ∈ q, e.2 ≠ []) : ((ps.foldl addRaw q).map Prod.fst).Nodup ∧ ∀ e ∈ ps.foldl addRaw q, e.2 ≠ [] := by
  induction ps generalizing q with
  | nil => exact ⟨hn, hv⟩
  | cons p t ih =>
    rw [List.foldl_cons]
    obtain ⟨h1, h2⟩ := addRaw_proper hn hv p
    exact ih h1 h2

/-- The whole way. -/
theorem seen_request (path : Str) (q : Values) (hn : (q.map Prod.fst).Nodup) (hv : ∀ e ∈ q, e.2 ≠ []) :
    ∃ q', seenRequest ('/' :: path) q = some ('/' :: path, q') ∧ (∀ k, q'.lookup k = q.lookup k) ∧
      (q'.map Prod.fst).Nodup ∧ ∀ e ∈ q', e.2 ≠ [] := by
  have hbytes : utf8Bytes ('/' :: path) = 47 :: utf8Bytes path := by
    unfold utf8Bytes
    rw [List.flatMap_cons]
    have : String.utf8EncodeChar '/' = [47] := by decide
    rw [this]; rfl
  have hn' : ((rawValues q).map Prod.fst).Nodup := by
    have : (rawValues q).map Prod.fst = (q.map Prod.fst).map utf8Bytes := by simp [rawValues]
    rw [this]
    exact hn.map fun a b h => utf8Bytes_inj h
  have hv' : ∀ e ∈ rawValues q, e.2 ≠ [] := by
    intro e he
    obtain ⟨x, hx, rfl⟩ := List.mem_map.1 he
    simpa using hv x hx
  have htext : ∀ e ∈ parseQuery (encodeQuery (rawValues q)), (∃ k, e.1 = utf8Bytes k) ∧ ∃ vs : List Str, e.2 = vs.map utf8Bytes := by
    intro e he
    rw [parse_encode] at he
    have := foldl_addRaw_text (P := fun b => ∃ k, b = utf8Bytes k) (Q := fun b => ∃ k, b = utf8Bytes k)
      (rawPairs (sortedKeys (rawValues q))) (q := []) (by simp) (by
        intro p hp
        obtain ⟨x, hx, hp⟩ := List.mem_flatMap.1 hp
        obtain ⟨v, hv, rfl⟩ := List.mem_map.1 hp
        obtain ⟨y, hy, rfl⟩ := List.mem_map.1 ((sortedKeys_perm _).mem_iff.1 hx)
        obtain ⟨w, hw, rfl⟩ := List.mem_map.1 hv
        exact ⟨⟨_, rfl⟩, ⟨_, rfl⟩⟩) e he
    exact ⟨this.1, all_text this.2⟩
  obtain ⟨q', h1, h2⟩ := textValues_some _ htext
  have h4 := foldl_addRaw_proper ((cutAmp (encodeQuery (rawValues q))).filterMap parsePair) (q := []) (by simp) (by simp)
  change ((parseQuery (encodeQuery (rawValues q))).map Prod.fst).Nodup ∧
    ∀ e ∈ parseQuery (encodeQuery (rawValues q)), e.2 ≠ [] at h4
  rw [← h2] at h4
  refine ⟨q', ?_, fun k => ?_, ?_, fun e he => ?_⟩
  · unfold seenRequest
    rw [hbytes, readTarget_requestTarget]
    simp only [h1]
    rw [← hbytes, utf8_read]
  · have h3 := rawValues_lookup q' k
    rw [h2, parse_encode_lookup hn' hv', rawValues_lookup] at h3
    have hinj : Function.Injective fun vs : List Str => vs.map utf8Bytes :=
      List.map_injective_iff.2 fun a b h => utf8Bytes_inj h
    exact (Option.map_injective hinj h3).symm
  · have : (rawValues q').map Prod.fst = (q'.map Prod.fst).map utf8Bytes := by simp [rawValues]
    rw [this] at h4
    exact List.Nodup.of_map _ h4.1
  · have := h4.2 _ (List.mem_map.2 ⟨e, he, rfl⟩)
    simpa using this

end LogCache
