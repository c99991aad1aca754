import Verif.Proof.Semver
import Verif.Props.JsonText

/-! # The version a gateway reports (C142) -/

namespace LogCache
open Spec

theorem version_plain {s : Str} {v : Semver} (h : IsVersion s v) : PlainText s := by
  have hd : ∀ n, PlainText (dec n) := by
    intro n c hc
    obtain ⟨h0, h9⟩ := dec_decimal n c hc
    have h0' : 48 ≤ c.toNat := h0
    have h9' : c.toNat ≤ 57 := h9
    refine ⟨by omega, ?_, ?_⟩ <;> (rintro rfl; revert h0' h9'; decide)
  have hw : ∀ w, VersionWord w → PlainText w := by
    intro w hw c hc
    rcases hw.2 c hc with ⟨h1, h2⟩ | ⟨h1, h2⟩ | ⟨h1, h2⟩ | rfl
    · have h1' : 97 ≤ c.toNat := h1
      refine ⟨by omega, ?_, ?_⟩ <;> (rintro rfl; revert h1'; decide)
    · have h1' : 65 ≤ c.toNat := h1
      have h2' : c.toNat ≤ 90 := h2
      refine ⟨by omega, ?_, ?_⟩ <;> (rintro rfl; revert h1' h2'; decide)
    · have h1' : 48 ≤ c.toNat := h1
      have h2' : c.toNat ≤ 57 := h2
      refine ⟨by omega, ?_, ?_⟩ <;> (rintro rfl; revert h1' h2'; decide)
    · decide
  have hj : ∀ ws : List Str, (∀ w ∈ ws, PlainText w) → PlainText (dotted ws) := by
    intro ws h c hc
    rcases mem_dotted hc with rfl | ⟨w, hw, hc⟩
    · decide
    · exact h w hw c hc
  obtain ⟨-, -, -, pre, build, hp, hb, -, rfl⟩ := h
  intro c hc
  simp only [List.mem_append, List.mem_cons] at hc
  rcases hc with hc | rfl | hc | rfl | hc | hc | hc
  · exact hd _ c hc
  · decide
  · exact hd _ c hc
  · decide
  · exact hd _ c hc
  · by_cases h : pre = []
    · rw [if_pos h] at hc; cases hc
    · rw [if_neg h] at hc
      rcases List.mem_cons.1 hc with rfl | hc
      · decide
      · refine hj pre (fun w hw' => ?_) c hc
        rcases hp w hw' with ⟨n, -, rfl⟩ | ⟨h, -⟩
        · exact hd n
        · exact hw w h
  · by_cases h : build = []
    · rw [if_pos h] at hc; cases hc
    · rw [if_neg h] at hc
      rcases List.mem_cons.1 hc with rfl | hc
      · decide
      · exact hj build (fun w hw' => hw w (hb w hw')) c hc

/-- A Read over HTTP from a gateway whose version is a semantic version goes to the path of
that version: `/v1` before 2.0.0, with the pre-releases of 2.0.0, and `/api/v1` from there on. -/
theorem C142_path {text : Str} {v : Semver} (h : IsVersion text v) (uptime : Int) (ans : HttpAns (List Envelope))
    (sourceId : Str) (start : Int) (opts : List ReadOpt) :
    (httpRead semverParse (infoAns text uptime "version") ans sourceId start opts).1 =
      [{ path := "/api/v1/info".toList },
       { path := (if v.major < 2 ∨ v = ⟨2, 0, 0, true⟩ then "/v1/read/".toList else "/api/v1/read/".toList) ++ sourceId,
         params := httpReadParams start opts }] :=
  (C106_read (version_plain h) uptime semverParse ans sourceId start opts).1 v ((semverParse_iff _ _).2 h)

/-- From a gateway with any other version, written without quotes, backslashes and control
characters, nothing is read: every Read is an error after the question for the version. -/
theorem C142_refused {text : Str} (hp : PlainText text) (h : ∀ v, ¬ IsVersion text v) (uptime : Int)
    (ans : HttpAns (List Envelope)) (sourceId : Str) (start : Int) (opts : List ReadOpt) :
    httpRead semverParse (infoAns text uptime "version") ans sourceId start opts =
      ([{ path := "/api/v1/info".toList }], none) := by
  refine (C106_read hp uptime semverParse ans sourceId start opts).2 ?_
  cases hs : semverParse text with
  | none => rfl
  | some v => exact absurd ((semverParse_iff _ _).1 hs) (h v)

/-- A text is at most one version. -/
theorem C142_one {text : Str} {v w : Semver} (hv : IsVersion text v) (hw : IsVersion text w) : v = w :=
  Option.some.inj (((semverParse_iff _ _).2 hv).symm.trans ((semverParse_iff _ _).2 hw))

/-- "The client library can read from every gateway" is false: one that was built without a
version reports the empty text (`cmd/gateway/config.go:8, 34`), and whatever it would
answer, every Read is an error. -/
theorem C142_unset_false (uptime : Int) (ans : HttpAns (List Envelope)) (sourceId : Str) (start : Int) (opts : List ReadOpt) :
    httpRead semverParse (infoAns [] uptime "version") ans sourceId start opts =
      ([{ path := "/api/v1/info".toList }], none) :=
  C142_refused (fun c hc => by cases hc) (fun v hv => by
    have := (semverParse_iff _ _).2 hv
    cases this) uptime ans sourceId start opts

/-- Versions of all forms. -/
example : IsVersion "2.0.0-rc.1+build-7.x".toList ⟨2, 0, 0, true⟩ ∧ IsVersion "1.4.7".toList ⟨1, 4, 7, false⟩ ∧
    IsVersion "10.0.3+5".toList ⟨10, 0, 3, false⟩ :=
  ⟨(semverParse_iff _ _).1 (by decide +kernel), (semverParse_iff _ _).1 (by decide +kernel),
    (semverParse_iff _ _).1 (by decide +kernel)⟩

/-- Texts that are no versions: a tag, two numbers, a leading zero, an empty pre-release. -/
example : ∀ s ∈ ["v2.1.0".toList, "2.1".toList, "2.01.0".toList, "2.1.0-".toList, "2.1.0.1".toList],
    PlainText s ∧ ∀ v, ¬ IsVersion s v := by
  intro s hs
  have hn : ∀ s ∈ ["v2.1.0".toList, "2.1".toList, "2.01.0".toList, "2.1.0-".toList, "2.1.0.1".toList],
    semverParse s = none := by decide +kernel
  refine ⟨?_, fun v hv => ?_⟩
  · revert s
    unfold PlainText
    decide
  · have := (semverParse_iff _ _).2 hv
    rw [hn s hs] at this
    cases this

end LogCache
