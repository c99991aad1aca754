import Verif.Spec.WhiteSpace

/-! # White space: the model's test is that of Unicode -/

namespace LogCache
open Spec

theorem goIsSpace_eq : goIsSpace = whiteSpace := by
  funext c
  rw [Bool.eq_iff_iff]
  unfold goIsSpace whiteSpace whiteSpaceCodes
  simp only [Bool.or_eq_true, Bool.and_eq_true, decide_eq_true_eq, List.mem_cons, List.not_mem_nil, or_false]
  omega

end LogCache
