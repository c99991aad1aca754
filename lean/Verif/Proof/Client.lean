import Verif.Spec.Client
import Verif.Proof.Num
import Verif.Proof.Maps

/-! # Lemmas about the client's options -/

namespace LogCache

open Spec

theorem fmtDigit_eq {n : Nat} (h : n < 10) : fmtDigit n = decDigit n := by
  have : ∀ n, n < 10 → fmtDigit n = decDigit n := by decide
  exact this n h

theorem fmtNat_eq (n : Nat) : ∀ acc, fmtNat n acc = dec n ++ acc := by
  induction n using Nat.strongRecOn with
  | _ n ih =>
    intro acc
    rw [fmtNat, dec]
    split
    · rename_i h; rw [fmtDigit_eq h]; rfl
    · rw [ih (n / 10) (by omega), fmtDigit_eq (Nat.mod_lt _ (by decide))]
      simp

theorem formatInt_eq (n : Int) : formatInt n = decInt n := by
  simp [formatInt, decInt, fmtNat_eq]

theorem parse_format {n : Int} (h : FitsInt64 n) : parseInt64 (formatInt n) = some n := by
  rw [formatInt_eq]; exact parseInt64_dec h.1 h.2

theorem etype_roundtrip {t : EType} (h : ∀ n, t ≠ .other n) : etypeValue (etypeString t) = some t := by
  cases t with
  | other n => exact absurd rfl (h n)
  | _ => decide

theorem addTypes_lookup (name : Str) (ts : List EType) (q : Values) (k : Str) :
    List.lookup k (ts.foldl (fun q t => Values.add q name (etypeString t)) q) =
      if k = name ∧ ts ≠ [] then
        some ((List.lookup k q).getD [] ++ ts.map etypeString) else List.lookup k q := by
  induction ts generalizing q with
  | nil => simp
  | cons t ts ih =>
    rw [List.foldl_cons, ih]
    unfold Values.add
    rw [mapSet_lookup]
    by_cases hk : k = name
    · subst hk
      cases ts with
      | nil => simp
      | cons u us => simp
    · simp [hk]

/-- The parameter that an option sets. -/
theorem apply_lookup (q : Values) (o : ReadOpt) (k : Str) :
    List.lookup k (o.apply q) = match o with
      | .endTime t => if k = "end_time".toList then some [formatInt t] else List.lookup k q
      | .limit n => if k = "limit".toList then some [formatInt n] else List.lookup k q
      | .types ts => if k = "envelope_types".toList ∧ ts ≠ [] then
          some ((List.lookup k q).getD [] ++ ts.map etypeString) else List.lookup k q
      | .descending => if k = "descending".toList then some ["true".toList] else List.lookup k q
      | .nameFilter s => if k = "name_filter".toList then some [s] else List.lookup k q := by
  cases o with
  | types ts => exact addTypes_lookup _ ts q k
  | _ => simp only [ReadOpt.apply, Values.set, mapSet_lookup]

theorem fold_end (opts : List ReadOpt) (q : Values) :
    List.lookup "end_time".toList (opts.foldl ReadOpt.apply q) =
      ((lastSome endOf opts).map fun t => [formatInt t]).or
        (List.lookup "end_time".toList q) := by
  induction opts generalizing q with
  | nil => simp [lastSome]
  | cons o os ih =>
    rw [List.foldl_cons, ih, apply_lookup, lastSome]
    generalize lastSome _ os = x
    cases x <;> cases o <;> simp [endOf, limitOf, nameOf]

theorem fold_limit (opts : List ReadOpt) (q : Values) :
    List.lookup "limit".toList (opts.foldl ReadOpt.apply q) =
      ((lastSome limitOf opts).map fun t => [formatInt t]).or
        (List.lookup "limit".toList q) := by
  induction opts generalizing q with
  | nil => simp [lastSome]
  | cons o os ih =>
    rw [List.foldl_cons, ih, apply_lookup, lastSome]
    generalize lastSome _ os = x
    cases x <;> cases o <;> simp [endOf, limitOf, nameOf]

theorem fold_name (opts : List ReadOpt) (q : Values) :
    List.lookup "name_filter".toList (opts.foldl ReadOpt.apply q) =
      ((lastSome nameOf opts).map fun t => [t]).or
        (List.lookup "name_filter".toList q) := by
  induction opts generalizing q with
  | nil => simp [lastSome]
  | cons o os ih =>
    rw [List.foldl_cons, ih, apply_lookup, lastSome]
    generalize lastSome _ os = x
    cases x <;> cases o <;> simp [endOf, limitOf, nameOf]

theorem fold_desc (opts : List ReadOpt) (q : Values) :
    List.lookup "descending".toList (opts.foldl ReadOpt.apply q) =
      if opts.any isDesc then some ["true".toList]
      else List.lookup "descending".toList q := by
  induction opts generalizing q with
  | nil => simp
  | cons o os ih =>
    rw [List.foldl_cons, ih, apply_lookup]
    generalize hx : List.any os _ = x
    cases x <;> cases o <;> simp [List.any_cons, hx, isDesc]

theorem fold_start (opts : List ReadOpt) (q : Values) :
    List.lookup "start_time".toList (opts.foldl ReadOpt.apply q) = List.lookup "start_time".toList q := by
  induction opts generalizing q with
  | nil => rfl
  | cons o os ih =>
    rw [List.foldl_cons, ih, apply_lookup]
    cases o <;> simp

theorem fold_types (opts : List ReadOpt) (q : Values) :
    (List.lookup "envelope_types".toList (opts.foldl ReadOpt.apply q)).getD [] =
      (List.lookup "envelope_types".toList q).getD [] ++
        (opts.flatMap typesOf).map etypeString := by
  induction opts generalizing q with
  | nil => simp
  | cons o os ih =>
    rw [List.foldl_cons, ih, apply_lookup]
    cases o with
    | types ts => cases ts <;> simp [typesOf]
    | _ => simp [typesOf]

theorem typesParam_known (ts : List EType) (h : ∀ n, EType.other n ∉ ts) :
    typesParam (ts.map etypeString) = some ts := by
  induction ts with
  | nil => rfl
  | cons t ts ih =>
    rw [List.map_cons, typesParam, etype_roundtrip (fun n hn => h n (by simp [hn])),
      ih fun n hn => h n (by simp [hn])]

theorem typesParam_unknown (ts : List EType) {n : Int} (h : EType.other n ∈ ts)
    (hs : etypeValue (formatInt n) = none) : typesParam (ts.map etypeString) = none := by
  induction ts with
  | nil => simp at h
  | cons t ts ih =>
    rw [List.map_cons, typesParam]
    rcases List.mem_cons.1 h with h1 | h1
    · subst h1; simp [etypeString, hs]
    · rw [ih h1]; simp

theorem map_known (ts : List EType) (h : ∀ n, EType.other n ∉ ts) :
    (ts.map etypeString).map (fun s => (etypeValue s).getD .any) = ts := by
  induction ts with
  | nil => rfl
  | cons t ts ih =>
    rw [List.map_cons, List.map_cons, etype_roundtrip (fun n hn => h n (by simp [hn])),
      ih fun n hn => h n (by simp [hn])]
    rfl

/-- The last value comes from an option. -/
theorem lastSome_mem {α : Type} {f : ReadOpt → Option α} {opts : List ReadOpt} {x : α}
    (h : lastSome f opts = some x) : ∃ o ∈ opts, f o = some x := by
  induction opts with
  | nil => simp [lastSome] at h
  | cons o os ih =>
    rw [lastSome] at h
    cases hx : lastSome f os with
    | none => rw [hx] at h; exact ⟨o, by simp, by simpa using h⟩
    | some y =>
      rw [hx] at h
      obtain ⟨o', h1, h2⟩ := ih (by rw [hx]; simpa using h)
      exact ⟨o', by simp [h1], h2⟩

/-- No number is spelled like a type. -/
theorem numeral_not_type {s : Str} {n : Int} (h : parseInt64 s = some n) : etypeValue s = none := by
  have h1 : parseInt64 "ANY".toList = none := by decide +kernel
  have h2 : parseInt64 "LOG".toList = none := by decide +kernel
  have h3 : parseInt64 "COUNTER".toList = none := by decide +kernel
  have h4 : parseInt64 "GAUGE".toList = none := by decide +kernel
  have h5 : parseInt64 "TIMER".toList = none := by decide +kernel
  have h6 : parseInt64 "EVENT".toList = none := by decide +kernel
  unfold etypeValue
  repeat' split
  all_goals first | rfl | (subst_vars; first
    | exact absurd (h1.symm.trans h) (by simp) | exact absurd (h2.symm.trans h) (by simp)
    | exact absurd (h3.symm.trans h) (by simp) | exact absurd (h4.symm.trans h) (by simp)
    | exact absurd (h5.symm.trans h) (by simp) | exact absurd (h6.symm.trans h) (by simp))

end LogCache
