import Verif.Props.AuthText
/-! # The most distant expiry times, and a Read from texts -/
namespace LogCache
open Spec

private theorem blank_none : Blank [] := by unfold Blank; decide

/-- A token that expires in the most distant second of all is refused as expired: the second
is turned into a float, and that float is beyond the largest `int64`. -/
theorem C160_forever_false : ∃ (p : Str) (d : TokenPayload),
    JsonDoc (.obj [("exp".toList, .num "9223372036854775807".toList)]) p ∧ tokenPayload p = some d ∧ d.exp < 0 := by
  refine ⟨"{\"exp\":9223372036854775807}".toList, ⟨[], -9223372036854775808000000000⟩, ?_, by decide +kernel, by decide⟩
  refine ⟨[], _, [], ?_, blank_none, .obj (.one (.mk (b1 := []) (b2 := []) (b3 := []) (b4 := []) blank_none
    (kt := "exp".toList) ?_ blank_none blank_none (.num ?_) blank_none)), blank_none⟩
  · rfl
  · exact .plain (by decide) (by decide) (by decide) (.plain (by decide) (by decide) (by decide)
      (.plain (by decide) (by decide) (by decide) .nil))
  · exact ⟨[], "9223372036854775807".toList, [], [], rfl, .inl rfl, .inr ⟨⟨by decide, by decide⟩, by decide⟩, .inl rfl, .inl rfl⟩

/-- A user who is no administrator reads the one application they have. -/
example :
    ListedBy (fun _ => none) [.resp 200 (some "{\"resources\":[{\"guid\":\"a\"}]}".toList), .resp 200 (some "{}".toList)]
      ["a".toList] ∧
    readHandler (tokenUser (fun s => s) (fun _ => some ⟨some "RS256".toList, some "k".toList⟩)
        (fun (_ : Unit) _ => some "{\"scope\":[],\"exp\":17}".toList) tokenPayload 5 { keys := [("k".toList, ())] })
      (fun id tk => (isAuthorized 60 [] 0 0 id tk ["a".toList]).1) "bearer x".toList "a".toList = .forward "a".toList := by
  constructor
  · have h1 : capiResp (fun _ => none) (.resp 200 (some "{\"resources\":[{\"guid\":\"a\"}]}".toList)) =
        .page [⟨"a".toList, []⟩] none := by decide +kernel
    have h2 : capiResp (fun _ => none) (.resp 200 (some "{}".toList)) = .page [] none := by decide +kernel
    refine ⟨⟨[], [], [], []⟩, ⟨[], [], [], []⟩, [(⟨[], [], [], []⟩, _)], [(⟨[], [], [], []⟩, _)], some [⟨"a".toList, []⟩],
      some [], ?_, ?_, rfl, rfl⟩
    · rw [List.map_singleton, h1]; exact .last rfl
    · rw [List.map_singleton, h2]; exact .last rfl
  · decide +kernel

end LogCache
