import Verif.Props.Float
import Verif.Props.JsonText
import Verif.Proof.FloatShort
import Verif.Model.Syslog

/-! # Query results with float64 numbers (C76, C93) -/

namespace LogCache
open Spec

theorem parseFloat_binary {s : Str} {x : F64} (h : parseFloat s = some x) : Binary64 x := by
  unfold parseFloat at h
  split at h
  · rename_i y hy
    injection h with h
    subst h
    unfold f64Special at hy
    simp only at hy
    split at hy
    · injection hy with hy; subst hy; trivial
    · split at hy
      · injection hy with hy; subst hy; trivial
      · split at hy
        · injection hy with hy; subst hy; trivial
        · cases hy
  · split at h
    · cases h
    · rename_i m k _
      have hb := f64Round_binary (takeSign s).1 (m * 10 ^ k.toNat) (den := 10 ^ (-k).toNat) (Nat.pow_pos (by omega))
      split at h
      · cases h
      · injection h with h; rw [← h]; exact hb

theorem divNat_binary {x : F64} (h : Binary64 x) {c : Nat} (hc : 0 < c) : Binary64 (x.divNat c) := by
  cases x with
  | fin s m e => exact f64Round_binary s _ (Nat.mul_pos hc (Nat.pow_pos (by omega)))
  | _ => trivial

/-- float64 numbers, each in one form only. -/
abbrev Go64 := {x : F64 // Binary64 x}

/-- The functions of `strconv` and `fmt` on float64 that
`/repo/pkg/marshaler/marshaler.go:187-211, 409-430` uses. -/
def go64 : FloatLib Go64 where
  parse s := match h : parseFloat s with
    | some x => some ⟨x, parseFloat_binary h⟩
    | none => none
  fmt3 x := x.1.fmt3
  fmtShort x := x.1.fmtShort
  ofMillis n := ⟨(f64OfInt (wrap64 n)).divNat 1000, divNat_binary (f64Round_binary _ _ (by omega)) (by omega)⟩

theorem go64_parse {s : Str} {x : Go64} (h : parseFloat s = some x.1) :
    go64.parse s = some x := by
  show (match h : parseFloat s with
    | some x => some ⟨x, parseFloat_binary h⟩
    | none => none) = some x
  split
  · rename_i y hy
    rw [h] at hy
    injection hy with hy
    congr 1
    exact Subtype.ext hy.symm
  · rename_i hy; rw [h] at hy; cases hy

theorem fixed_valid (s : Bool) (n : Nat) : NumText (fmtFixed s n 3) := by
  rw [fixed3_eq]
  cases s with
  | false =>
    have := thousandths_valid n
    unfold thousandthsText at this
    rw [if_neg (by omega)] at this
    exact this
  | true =>
    by_cases hn : n = 0
    · subst hn; rw [← validNumber_iff]; decide +kernel
    · have := thousandths_valid (-(n : Int))
      unfold thousandthsText at this
      rw [if_pos (by omega)] at this
      simpa using this

/-- float64 satisfies the laws the theorems about query results assume. -/
theorem C76_float64 : FloatLaws go64 := by
  refine ⟨fun v => go64_parse (short_read v.1 v.2), ?_, ?_⟩
  · rintro ⟨x, hx⟩ hv
    cases x with
    | nan => exact absurd hv (by show ¬ NumText "NaN".toList; rw [← validNumber_iff]; decide)
    | inf s =>
      cases s
      · exact absurd hv (by show ¬ NumText "+Inf".toList; rw [← validNumber_iff]; decide)
      · exact absurd hv (by show ¬ NumText "-Inf".toList; rw [← validNumber_iff]; decide)
    | fin s m e =>
      obtain ⟨m', e', h1, h2, h3⟩ := three_stable s m e hx
      exact ⟨⟨.fin s m' e', h2⟩, go64_parse h1, h3⟩
  · intro n
    show NumText ((f64OfInt (wrap64 n)).divNat 1000).fmt3
    have hb : (wrap64 n).natAbs < 2 ^ 64 := by unfold wrap64; omega
    have hq : ((wrap64 n).natAbs : ℚ) < 18446744073709551616 := by exact_mod_cast hb
    have c1 : (2 : ℚ) ^ 52 * 2 ^ (20 + 1 : Int) = 9444732965739290427392 := by norm_num
    obtain ⟨m, e, h1, r1⟩ := ofInt_fin (wrap64 n) (b := 20) (by norm_num) (by norm_num) (by rw [c1]; linarith)
    have n1 := r1.near
    have c2 : (2 : ℚ) ^ (20 : Int) = 1048576 := by norm_num
    rw [c2, abs_le] at n1
    obtain ⟨m', e', h2, _⟩ := divNat_fin (decide (wrap64 n < 0)) m e (c := 1000) (by omega) (b := 20) (by norm_num)
      (by norm_num) (by rw [c1]; push_cast; linarith [n1.2])
    rw [h1, h2]
    obtain ⟨k, h3, _⟩ := fmt3_fin (decide (wrap64 n < 0)) m' e'
    rw [h3]
    exact fixed_valid _ _

/-- Some numbers in their shortest notation: a tenth, the largest number below one, 10^23,
which is no float64, and the smallest number. -/
example : F64.fmtShort (.fin false 7205759403792794 (-56)) = "0.1".toList ∧
    F64.fmtShort (.fin true 9007199254740991 (-53)) = "-0.9999999999999999".toList ∧
    F64.fmtShort (.fin false 5960464477539062 24) = "100000000000000000000000".toList ∧
    F64.fmtShort (.fin false 4503599627370496 (-52)) = "1".toList ∧
    (F64.fmtShort (.fin false 1 (-1074))).length = 326 := by
  refine ⟨?_, ?_, ?_, ?_, ?_⟩ <;> decide +kernel

/-- The time of a point in milliseconds, below 2^43 seconds. -/
theorem go64_time {t : Int} (h : t.natAbs < 2 ^ 43 * 1000) : go64.fmt3 (go64.ofMillis t) = thousandthsText t := by
  have hw : wrap64 t = t := by unfold wrap64; omega
  show ((f64OfInt (wrap64 t)).divNat 1000).fmt3 = _
  rw [hw]
  exact formatMillis_eq t h

/-- With float64 numbers: what the query engine computed arrives at the client, all
values unchanged and all times exact to the millisecond. -/
theorem C93_float64 (xs : List (EngineSeries Go64)) (hx : ∀ x ∈ xs, (x.labels.map Prod.fst).Nodup)
    (ht : ∀ x ∈ xs, ∀ p ∈ x.points, p.1.natAbs < 2 ^ 43 * 1000) :
    ∃ j, ((toRange go64 (.matrix xs)).bind fun r => marshalResult go64 (some r)) = some j ∧
      unmarshalRange go64 j = some (.matrix (xs.map fun x =>
        ⟨x.labels, x.points.map fun p => ⟨thousandthsText p.1, p.2⟩⟩)) := by
  obtain ⟨j, _, h1, _, h2⟩ := (C93_end_to_end C76_float64).2.2 xs hx
  refine ⟨j, h1, h2.trans ?_⟩
  congr 2
  refine List.map_congr_left fun x hxx => ?_
  congr 1
  refine List.map_congr_left fun p hp => ?_
  congr 1
  exact go64_time (ht x hxx p hp)

end LogCache
