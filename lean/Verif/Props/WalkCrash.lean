import Verif.Spec.WalkCrash
import Verif.Props.WalkHttp
import Verif.Props.UserCrash
import Verif.Props.QueryCrash

/-! # What a walk delivers while nodes crash (C170) -/

namespace LogCache
open Spec

theorem wireProject_ts {nf : Option (Str → Bool)} {e x : WireEnvelope} (h : wireProject nf e = some x) :
    x.timestamp = e.timestamp := by
  unfold wireProject at h
  split at h
  · cases h; rfl
  · split at h
    · split at h <;> cases h <;> rfl
    · cases h

theorem walkShows_ts {compile : Str → Option (Str → Bool)} {w : WalkCfg} {e x : WireEnvelope}
    (h : walkShows compile w e = some x) : x.timestamp = e.timestamp := by
  unfold walkShows at h
  exact wireProject_ts (Option.filter_eq_some_iff.1 h).1

/-- A part of what matches is what a walk shows of a part of the log. -/
theorem matching_shown {compile : Str → Option (Str → Bool)} {w : WalkCfg} {id : Str} {s now : Int}
    {log ws : List WireEnvelope} (h : ws.Sublist (matching compile now (walkRequest w id s) log)) :
    ∃ part : List WireEnvelope, part.Sublist log ∧ (∀ e ∈ part, s ≤ e.timestamp) ∧
      List.Forall₂ (fun e x => walkShows compile w e = some x) part ws := by
  unfold matching at h
  rw [List.filter_filterMap] at h
  obtain ⟨part, h1, h2⟩ := List.sublist_filterMap_iff.1 h
  rw [if_neg (show ¬ (walkRequest w id s).descending = true from Bool.false_ne_true)] at h1
  have hshow : ∀ part : List WireEnvelope, ∃ p' : List WireEnvelope, p'.Sublist part ∧
      List.Forall₂ (fun e x => walkShows compile w e = some x) p' (part.filterMap (walkShows compile w)) := by
    intro part
    induction part with
    | nil => exact ⟨[], List.Sublist.slnil, .nil⟩
    | cons e t ih =>
      obtain ⟨p', g1, g2⟩ := ih
      cases hx : walkShows compile w e with
      | none => exact ⟨p', g1.cons _, by rw [List.filterMap_cons_none hx]; exact g2⟩
      | some x => exact ⟨e :: p', g1.cons_cons _, by rw [List.filterMap_cons_some hx]; exact .cons hx g2⟩
  obtain ⟨p', g1, g2⟩ := hshow part
  refine ⟨p', (g1.trans h1).trans List.filter_sublist, fun e he => ?_, ?_⟩
  · have := (List.mem_filter.1 (h1.subset (g1.subset he))).2
    rw [Bool.and_eq_true, decide_eq_true_eq] at this
    exact this.1
  · rw [h2]
    exact g2

theorem someWire_filter {l all : List WireEnvelope} {p : WireEnvelope → Bool} (h : SomeWire l all) (hp : ∀ e ∈ l, p e = true) :
    SomeWire l (all.filter p) := by
  obtain ⟨r, hr⟩ := h
  refine ⟨r.filter p, ?_⟩
  have := hr.filter p
  rw [List.filter_append, List.filter_eq_self.2 hp] at this
  exact this

/-- What was sent from the time `m` on. -/
def sentFrom (all : List WireEnvelope) (m : Int) : List WireEnvelope := all.filter fun e => decide (m ≤ e.timestamp)

/-- Two parts of different times. -/
theorem someWire_join {a b all : List WireEnvelope} {m k : Int} (hmk : m ≤ k) (ha : SomeWire a (sentFrom all m))
    (hk : ∀ e ∈ a, e.timestamp < k) (hb : SomeWire b (sentFrom all k)) : SomeWire (a ++ b) (sentFrom all m) := by
  have ha' := someWire_filter (p := fun e => !decide (k ≤ e.timestamp)) ha fun e he => by
    have := hk e he
    simpa using this
  have e : sentFrom all k = (sentFrom all m).filter fun e => decide (k ≤ e.timestamp) := by
    unfold sentFrom
    rw [List.filter_filter]
    refine List.filter_congr fun x _ => ?_
    rw [Bool.eq_iff_iff, Bool.and_eq_true, decide_eq_true_eq, decide_eq_true_eq]
    omega
  rw [e] at hb
  obtain ⟨ra, ha'⟩ := ha'
  obtain ⟨rb, hb⟩ := hb
  refine ⟨ra ++ rb, ?_⟩
  have h1 : (a ++ b ++ (ra ++ rb)).Perm ((b ++ rb) ++ (a ++ ra)) := by
    rw [List.perm_iff_count]
    intro x
    simp only [List.count_append]
    omega
  exact h1.trans ((hb.append ha').trans (List.filter_append_perm _ _))

theorem cutTail_last (p : Envelope → Bool) (es : List Envelope) {e : Envelope} (h : (cutTail p es).getLast? = some e) :
    p e = false := by
  unfold cutTail at h
  rw [List.getLast?_reverse] at h
  generalize es.reverse = l at h
  induction l with
  | nil => cases h
  | cons x t ih =>
    by_cases hx : p x = true
    · rw [List.dropWhile_cons_of_pos hx] at h
      exact ih h
    · rw [List.dropWhile_cons_of_neg hx] at h
      cases h
      exact Bool.not_eq_true _ ▸ hx

theorem walkTrim_last (c : WalkCfg) (re : Bool) (now : Int) (es : List Envelope) (e : Envelope)
    (h : (walkTrim c re now es).getLast? = some e) (stop : Int) (hs : c.stop = some stop) : e.timestamp < stop := by
  unfold walkTrim at h
  rw [hs] at h
  have := cutTail_last _ _ h
  simpa using this

theorem last_max {l : List Envelope} {last : Envelope} (hl : l.getLast? = some last)
    (hs : l.Pairwise fun x y => x.timestamp ≤ y.timestamp) : ∀ e ∈ l, e.timestamp ≤ last.timestamp := by
  intro e he
  obtain ⟨init, rfl⟩ : ∃ init, l = init ++ [last] := by
    obtain ⟨hne, h⟩ := List.getLast?_eq_some_iff.1 hl
    exact ⟨_, h⟩
  rcases List.mem_append.1 he with h | h
  · exact (List.pairwise_append.1 hs).2.2 e h last (List.mem_singleton.2 rfl)
  · rw [List.mem_singleton.1 h]

section
variable {methodOk : Str → Bool} {oauth : Str → Option UserCtx} {auth : Str → Str → Bool}
    {related : List Str → Str → Option Expansions} {order : List Str → List Str}
    {parse : Str → Option PExpr} {print : PExpr → Str} {compile : Str → Option (Str → Bool)}
    {cfg : Config} {n : Nat} {L : Str → List Nat} {posts : List SendReq} {token id : Str} {w : WalkCfg}

/-- What the auth proxy and the gateway make of a request of the walk. -/
theorem walk_door (hw : UserWalk methodOk oauth auth token w id) {s : Int} (hs : FitsInt64 s) {path : Str} {params : Values}
    (hseen : seenRequest ("/api/v1/read/".toList ++ id) (httpReadParams s (walkOpts w)) = some (path, params)) :
    door false methodOk oauth auth related order parse print
      { method := "GET".toList, path := path, params := params, authorization := token } =
      some (.read (walkRequest w id s)) := by
  have hr : ∀ o ∈ walkOpts w, OptInRange o := by
    intro o ho
    unfold walkOpts at ho
    simp only [List.mem_append] at ho
    rcases ho with ((ho | ho) | ho) | ho
    · cases hl : w.stop with
      | none => rw [hl] at ho; simp at ho
      | some k => rw [hl] at ho; rw [List.mem_singleton.1 ho]; exact hw.stop k hl
    · cases hl : w.limit with
      | none => rw [hl] at ho; simp at ho
      | some k => rw [hl] at ho; rw [List.mem_singleton.1 ho]; exact hw.limit k hl
    · cases hl : w.types with
      | none => rw [hl] at ho; simp at ho
      | some k => rw [hl] at ho; rw [List.mem_singleton.1 ho]; trivial
    · split at ho
      · simp at ho
      · rw [List.mem_singleton.1 ho]
        trivial
  have hk : ∀ o ∈ walkOpts w, OptKnown o := by
    intro o ho
    cases o with
    | types ts =>
      refine hw.known ts ?_
      unfold walkOpts at ho
      simp only [List.mem_append] at ho
      rcases ho with ((ho | ho) | ho) | ho
      · split at ho <;> simp at ho
      · split at ho <;> simp at ho
      · split at ho
        · rename_i h
          simp only [List.mem_singleton, ReadOpt.types.injEq] at ho
          rw [h, ho]
        · simp at ho
      · split at ho <;> simp at ho
    | _ => trivial
  obtain ⟨q, hq, hasked⟩ := C132_read id s (walkOpts w) hs hr hk
  rw [hq] at hseen
  cases hseen
  rw [C75_served_partial methodOk oauth auth related order parse print
    { method := "GET".toList, path := "/api/v1/read/".toList ++ id, params := params, authorization := token } id
    rfl hw.clean.1 hw.clean.2.1 hw.clean.2.2 hw.method hw.may]
  show (gatewayRead id params).map _ = _
  rw [hasked, C164_asked]
  rfl

/-- What a page of the walk is: what the walk shows of some of what was sent, in the order of time
if equal times are spread out. -/
theorem crash_page (hw : UserWalk methodOk oauth auth token w id) {s : Int} (hs : FitsInt64 s) {es : List Envelope} {now : Int}
    {more : Bool} (h : HttpCrashReader methodOk oauth auth related order parse print compile cfg n L posts token w id
      (walkRequest w id s) (.got es now more)) :
    ∃ part ws : List WireEnvelope, es = ws.map envelopeCode ∧ SomeWire part (postedFor posts id) ∧
      (∀ e ∈ part, s ≤ e.timestamp) ∧ List.Forall₂ (fun e x => walkShows compile w e = some x) part ws ∧
      (SpreadWire (postedFor posts id) → part.Pairwise fun x y => x.timestamp ≤ y.timestamp) := by
  obtain ⟨evs, c, early, hcl, ⟨rest, rfl⟩, j, ws, hpage, rfl⟩ := h
  rcases hpage with ⟨now', path, params, hseen, hread⟩ | ⟨h, -⟩
  swap
  · cases h
  rcases hread with hthrough | ⟨h, -⟩
  swap
  · cases h
  obtain ⟨q, hdoor, -, log, ws', hlog, hsub, hsort, hout⟩ :=
    C167_any methodOk oauth auth related order parse print compile now' hcl hthrough
  rw [walk_door hw hs hseen] at hdoor
  cases hdoor
  rcases hout with h | ⟨h, -⟩
  swap
  · cases h
  cases h
  obtain ⟨part, p1, p2, p3⟩ := matching_shown hsub
  refine ⟨part, ws, rfl, ?_, p2, p3, fun hspread => ?_⟩
  · obtain ⟨r, hr⟩ := hlog
    obtain ⟨r', hr'⟩ := p1.exists_perm_append
    refine ⟨r' ++ r ++ postedFor rest id, ?_⟩
    rw [postedFor_append, ← List.append_assoc, ← List.append_assoc]
    exact ((hr'.symm.append_right r).trans hr).append_right _
  · refine (hsort ?_).sublist p1
    intro x hx y hy hlt
    rw [postedFor_append] at hspread
    have := hspread x (List.mem_append_left _ hx) y (List.mem_append_left _ hy) hlt
    have hle : howManyWire (postedFor early id) x.timestamp ≤
        howManyWire (postedFor early id ++ postedFor rest id) x.timestamp := by
      unfold howManyWire
      rw [List.filter_append, List.length_append]
      omega
    have e : (walkRequest w id s).sourceId = id := rfl
    rw [e]
    omega

theorem shown_codes {part ws : List WireEnvelope} (h : List.Forall₂ (fun e x => walkShows compile w e = some x) part ws) :
    part.map WireEnvelope.timestamp = (ws.map envelopeCode).map Envelope.timestamp := by
  induction h with
  | nil => rfl
  | cons hx _ ih =>
    simp only [List.map_cons, ih]
    rw [← walkShows_ts hx]
    rfl

theorem crash_step {β : Type} {bo : Backoff β} (hw : UserWalk methodOk oauth auth token w id)
    (hmax : ∀ e ∈ postedFor posts id, e.timestamp < 2 ^ 63 - 1)
    {s : WalkState β} {i : WalkIn} {v : Option (List Envelope)} {o : Option (WalkState β)}
    (hs : FitsInt64 s.start) (he : HttpCrashReader methodOk oauth auth related order parse print compile cfg n L posts token w id
      (walkRequest w id s.start) i) (hst : walkStep bo w s i = (v, o)) :
    ∃ part ws : List WireEnvelope, v.getD [] = ws.map envelopeCode ∧
      List.Forall₂ (fun e x => walkShows compile w e = some x) part ws ∧
      SomeWire part (sentFrom (postedFor posts id) s.start) ∧
      (SpreadWire (postedFor posts id) → (part.Pairwise fun x y => x.timestamp ≤ y.timestamp) ∧
        (∀ e ∈ part, ∀ stop, w.stop = some stop → e.timestamp < stop)) ∧
      ∀ t, o = some t → FitsInt64 t.start ∧ s.start ≤ t.start ∧
        (SpreadWire (postedFor posts id) → ∀ e ∈ part, e.timestamp < t.start) := by
  have hnone : ∀ t : WalkState β, t.start = s.start → FitsInt64 t.start ∧ s.start ≤ t.start ∧
      (SpreadWire (postedFor posts id) → ∀ e ∈ ([] : List WireEnvelope), e.timestamp < t.start) := by
    intro t ht
    rw [ht]
    exact ⟨hs, le_refl _, fun _ e he => by cases he⟩
  have hno : SomeWire [] (sentFrom (postedFor posts id) s.start) := ⟨_, List.Perm.refl _⟩
  cases i with
  | failed d =>
    simp only [walkStep] at hst
    split at hst
    · cases hst
      exact ⟨[], [], rfl, .nil, hno, fun _ => ⟨.nil, fun e he => (by cases he)⟩, fun t ht => (by cases ht)⟩
    · simp only [Prod.mk.injEq] at hst
      obtain ⟨rfl, rfl⟩ := hst
      refine ⟨[], [], rfl, .nil, hno, fun _ => ⟨.nil, fun e he => (by cases he)⟩, fun t ht => ?_⟩
      split at ht
      · cases ht; exact hnone _ rfl
      · cases ht
  | got es now more =>
    obtain ⟨part0, ws0, rfl, h1, h2, h3, h4⟩ := crash_page hw hs he
    obtain ⟨k, htrim⟩ : ∃ k, walkTrim w s.receivedEmpty now (ws0.map envelopeCode) = (ws0.take k).map envelopeCode := by
      obtain ⟨rest, hr⟩ := walkTrim_prefix w s.receivedEmpty now (ws0.map envelopeCode)
      refine ⟨(walkTrim w s.receivedEmpty now (ws0.map envelopeCode)).length, ?_⟩
      generalize walkTrim w s.receivedEmpty now (ws0.map envelopeCode) = x at hr
      rw [List.map_take, ← hr, List.take_left]
    have hlast := walkTrim_last w s.receivedEmpty now (ws0.map envelopeCode)
    simp only [walkStep] at hst
    rw [htrim] at hst hlast
    have g3 := List.forall₂_take k h3
    have g4 := fun hspread => (h4 hspread).sublist (List.take_sublist k part0)
    have g1 : SomeWire (part0.take k) (sentFrom (postedFor posts id) s.start) := by
      refine someWire_filter ?_ fun e he => by
        rw [decide_eq_true_eq]
        exact h2 e (List.mem_of_mem_take he)
      obtain ⟨r1, hr1⟩ := h1
      refine ⟨part0.drop k ++ r1, ?_⟩
      rw [← List.append_assoc, List.take_append_drop]
      exact hr1
    have g5 : ∀ e ∈ part0.take k, e ∈ postedFor posts id :=
      fun e he => (List.mem_filter.1 (someWire_mem g1 he)).1
    generalize part0.take k = part at g1 g3 g4 g5
    generalize ws0.take k = ws at hst hlast g3
    clear htrim
    have hts := shown_codes g3
    split at hst
    · next hl =>
      have : ws = [] := by
        rw [List.getLast?_eq_none_iff] at hl
        simpa using hl
      subst this
      cases g3
      simp only [Prod.mk.injEq] at hst
      obtain ⟨rfl, rfl⟩ := hst
      refine ⟨[], [], rfl, .nil, hno, fun _ => ⟨.nil, fun e he => (by cases he)⟩, fun t ht => ?_⟩
      split at ht
      · cases ht; exact hnone _ rfl
      · cases ht
    · next last hl =>
      have hsorted : SpreadWire (postedFor posts id) → (ws.map envelopeCode).Pairwise fun x y => x.timestamp ≤ y.timestamp := by
        intro hspread
        rw [← List.pairwise_map (f := Envelope.timestamp) (R := (· ≤ ·)), ← hts, List.pairwise_map]
        exact g4 hspread
      have hle : SpreadWire (postedFor posts id) → ∀ e ∈ part, e.timestamp ≤ last.timestamp := by
        intro hspread e he
        have : e.timestamp ∈ (ws.map envelopeCode).map Envelope.timestamp := by
          rw [← hts]; exact List.mem_map.2 ⟨e, he, rfl⟩
        obtain ⟨x, hx, hxe⟩ := List.mem_map.1 this
        rw [← hxe]
        exact last_max hl (hsorted hspread) x hx
      obtain ⟨e0, he0, hlast0⟩ : ∃ e0 ∈ part, e0.timestamp = last.timestamp := by
        have : last.timestamp ∈ part.map WireEnvelope.timestamp := by
          rw [hts]; exact List.mem_map.2 ⟨last, List.mem_of_getLast? hl, rfl⟩
        obtain ⟨x, hx, hxe⟩ := List.mem_map.1 this
        exact ⟨x, hx, hxe⟩
      simp only [Prod.mk.injEq] at hst
      obtain ⟨rfl, rfl⟩ := hst
      refine ⟨part, ws, rfl, g3, g1, fun hspread => ⟨g4 hspread, fun e he stop hstop => ?_⟩, fun t ht => ?_⟩
      · have a := hle hspread e he
        have b := hlast last hl stop hstop
        omega
      · have hkey : ∀ (b : Bool) (x : WalkState β), (if b = true then none else some x) = some t → x = t := by
          intro b x h
          cases b
          · exact Option.some.inj h
          · cases h
        rw [← hkey _ _ ht]
        have a1 := hmax e0 (g5 e0 he0)
        have a2 : s.start ≤ e0.timestamp := by
          have := (List.mem_filter.1 (someWire_mem g1 he0)).2
          rwa [decide_eq_true_eq] at this
        unfold FitsInt64 at hs ⊢
        simp only
        refine ⟨by omega, by omega, fun hspread e he => ?_⟩
        have := hle hspread e he
        omega

theorem crash_walk_http {β : Type} {bo : Backoff β} (hw : UserWalk methodOk oauth auth token w id)
    (hspread : SpreadWire (postedFor posts id)) (hmax : ∀ e ∈ postedFor posts id, e.timestamp < 2 ^ 63 - 1)
    {s : WalkState β} {tr : List (WalkIn × Option (List Envelope))} {r : Option (WalkState β)}
    (h : WalkRun bo w id (HttpCrashReader methodOk oauth auth related order parse print compile cfg n L posts token w id)
      s tr r) (hs : FitsInt64 s.start) :
    ∃ part ws : List WireEnvelope, (delivered tr).flatten = ws.map envelopeCode ∧
      List.Forall₂ (fun e x => walkShows compile w e = some x) part ws ∧
      SomeWire part (sentFrom (postedFor posts id) s.start) ∧ (part.Pairwise fun x y => x.timestamp ≤ y.timestamp) ∧
      ∀ e ∈ part, ∀ stop, w.stop = some stop → e.timestamp < stop := by
  induction h with
  | nil => exact ⟨[], [], rfl, .nil, ⟨_, List.Perm.refl _⟩, .nil, fun e he => by cases he⟩
  | done he hst =>
    obtain ⟨part, ws, h1, h2, h3, h45, -⟩ := crash_step hw hmax hs he hst
    obtain ⟨h4, h5⟩ := h45 hspread
    refine ⟨part, ws, ?_, h2, h3, h4, h5⟩
    rw [← h1]
    rename_i v
    cases v <;> simp [delivered]
  | step he hst _ ih =>
    obtain ⟨part, ws, h1, h2, h3, h45, h6⟩ := crash_step hw hmax hs he hst
    obtain ⟨h4, h5⟩ := h45 hspread
    obtain ⟨f1, f2, f3'⟩ := h6 _ rfl
    have f3 := f3' hspread
    obtain ⟨part', ws', k1, k2, k3, k4, k5⟩ := ih f1
    refine ⟨part ++ part', ws ++ ws', ?_, List.rel_append h2 k2, someWire_join f2 h3 f3 k3, ?_, ?_⟩
    · rw [List.map_append, ← h1, ← k1]
      rename_i v _ _ _
      cases v <;> simp [delivered]
    · refine List.pairwise_append.2 ⟨h4, k4, fun x hx y hy => ?_⟩
      have a := f3 x hx
      have b := (List.mem_filter.1 (someWire_mem k3 hy)).2
      rw [decide_eq_true_eq] at b
      omega
    · intro e he
      rcases List.mem_append.1 he with he | he
      · exact h5 e he
      · exact k5 e he
theorem crash_walk_any {β : Type} {bo : Backoff β} (hw : UserWalk methodOk oauth auth token w id)
    (hmax : ∀ e ∈ postedFor posts id, e.timestamp < 2 ^ 63 - 1)
    {s : WalkState β} {tr : List (WalkIn × Option (List Envelope))} {r : Option (WalkState β)}
    (h : WalkRun bo w id (HttpCrashReader methodOk oauth auth related order parse print compile cfg n L posts token w id)
      s tr r) (hs : FitsInt64 s.start) :
    ∀ b ∈ delivered tr, ∃ part ws : List WireEnvelope, b = ws.map envelopeCode ∧
      List.Forall₂ (fun e x => walkShows compile w e = some x) part ws ∧
      SomeWire part (sentFrom (postedFor posts id) s.start) := by
  induction h with
  | nil => intro b hb; cases hb
  | done he hst =>
    obtain ⟨part, ws, h1, h2, h3, -, -⟩ := crash_step hw hmax hs he hst
    intro b hb
    rename_i v
    cases v with
    | none => cases hb
    | some x =>
      have : b = x := by simpa [delivered] using hb
      subst this
      exact ⟨part, ws, h1, h2, h3⟩
  | step he hst _ ih =>
    obtain ⟨part, ws, h1, h2, h3, -, h6⟩ := crash_step hw hmax hs he hst
    obtain ⟨f1, f2, -⟩ := h6 _ rfl
    intro b hb
    rename_i v tr' _ _
    have hor : v = some b ∨ b ∈ delivered tr' := by
      cases v with
      | none => exact .inr hb
      | some x =>
        have : b = x ∨ b ∈ delivered tr' := by simpa [delivered] using hb
        rcases this with rfl | h
        · exact .inl rfl
        · exact .inr h
    rcases hor with rfl | hb'
    · exact ⟨part, ws, h1, h2, h3⟩
    · obtain ⟨part', ws', k1, k2, k3⟩ := ih f1 b hb'
      refine ⟨part', ws', k1, k2, ?_⟩
      have := someWire_join (a := []) f2 ⟨_, List.Perm.refl _⟩ (fun e he => by cases he) k3
      exact this
theorem sentFrom_some {part all : List WireEnvelope} {m : Int} (h : SomeWire part (sentFrom all m)) : SomeWire part all := by
  obtain ⟨r, hr⟩ := h
  refine ⟨r ++ all.filter (fun e => !decide (m ≤ e.timestamp)), ?_⟩
  rw [← List.append_assoc]
  exact (hr.append_right _).trans (List.filter_append_perm _ _)

theorem sentFrom_le {part all : List WireEnvelope} {m : Int} (h : SomeWire part (sentFrom all m)) :
    ∀ e ∈ part, m ≤ e.timestamp := by
  intro e he
  have := (List.mem_filter.1 (someWire_mem h he)).2
  rwa [decide_eq_true_eq] at this

/-- Whatever the times: every batch that a walk delivers shows envelopes that were sent for the
source, none of them before the start of the walk, and none of them more often than it was sent,
whichever nodes crashed or pruned their stores, before the walk or between two of its reads. -/
theorem C170_batch_partial {β : Type} {bo : Backoff β} {b0 : β} (hw : UserWalk methodOk oauth auth token w id)
    (hmax : ∀ e ∈ postedFor posts id, e.timestamp < 2 ^ 63 - 1)
    {tr : List (WalkIn × Option (List Envelope))} {r : Option (WalkState β)}
    (h : WalkRun bo w id (HttpCrashReader methodOk oauth auth related order parse print compile cfg n L posts token w id)
      (walkInit w b0) tr r) :
    ∀ batch ∈ delivered tr, ∃ part shown : List WireEnvelope, batch = shown.map envelopeCode ∧
      List.Forall₂ (fun e x => walkShows compile w e = some x) part shown ∧
      SomeWire part (postedFor posts id) ∧ ∀ e ∈ part, w.start ≤ e.timestamp := by
  intro b hb
  obtain ⟨part, ws, h1, h2, h3⟩ := crash_walk_any hw hmax h hw.start b hb
  exact ⟨part, ws, h1, h2, sentFrom_some h3, sentFrom_le h3⟩

/-- If the times are spread out, the same holds of the whole walk: all that it delivers, from its
first batch to its last, is in the order of time and in its range, and shows no envelope more often
than it was sent. -/
theorem C170_once_partial {β : Type} {bo : Backoff β} {b0 : β} (hw : UserWalk methodOk oauth auth token w id)
    (hspread : SpreadWire (postedFor posts id)) (hmax : ∀ e ∈ postedFor posts id, e.timestamp < 2 ^ 63 - 1)
    {tr : List (WalkIn × Option (List Envelope))} {r : Option (WalkState β)}
    (h : WalkRun bo w id (HttpCrashReader methodOk oauth auth related order parse print compile cfg n L posts token w id)
      (walkInit w b0) tr r) :
    ∃ part shown : List WireEnvelope, (delivered tr).flatten = shown.map envelopeCode ∧
      List.Forall₂ (fun e x => walkShows compile w e = some x) part shown ∧
      SomeWire part (postedFor posts id) ∧ (part.Pairwise fun x y => x.timestamp ≤ y.timestamp) ∧
      ∀ e ∈ part, InWalk w e.timestamp := by
  obtain ⟨part, ws, h1, h2, h3, h4, h5⟩ := crash_walk_http hw hspread hmax h hw.start
  exact ⟨part, ws, h1, h2, sentFrom_some h3, h4, fun e he => ⟨sentFrom_le h3 e he, h5 e he⟩⟩
end

theorem fairWalk_user {methodOk : Str → Bool} {oauth : Str → Option UserCtx} {auth : Str → Str → Bool}
    {compile : Str → Option (Str → Bool)} {token : Str} {w : WalkCfg} {id : Str} {stop : Int}
    (h : FairHttpWalk methodOk oauth auth compile token w id stop) : UserWalk methodOk oauth auth token w id where
  start := h.walk.fits.1
  stop := by
    intro t ht
    have := h.walk.ends
    rw [ht] at this
    cases this
    exact h.walk.fits.2
  limit := by
    intro k hk
    have := h.walk.limit
    rw [hk] at this
    unfold FitsInt64
    simp only [Option.getD_some] at this
    omega
  known := by
    intro ts hts k hk
    refine h.walk.known k ?_
    rw [hts]
    exact hk
  clean := h.clean
  method := h.method
  may := h.may

/-- The walks of clusters at rest (C164) are among those that `C170_once_partial` is about. -/
theorem C170_covers {methodOk : Str → Bool} {oauth : Str → Option UserCtx} {auth : Str → Str → Bool}
    {related : List Str → Str → Option Expansions} {order : List Str → List Str}
    {parse : Str → Option PExpr} {print : PExpr → Str} {compile : Str → Option (Str → Bool)}
    {cfg : Config} {n : Nat} {L : Str → List Nat} {evs : List CEvent} {c : Cluster} {posts : List SendReq}
    {token id : Str} {w : WalkCfg} {stop : Int} {log : List WireEnvelope} {β : Type} {bo : Backoff β} {s : WalkState β}
    {tr : List (WalkIn × Option (List Envelope))} {r : Option (WalkState β)}
    (hc : AtRest cfg n L evs c posts id) (hw : FairHttpWalk methodOk oauth auth compile token w id stop)
    (h : WalkRun bo w id (HttpReader methodOk oauth auth related order parse print compile c token w id log) s tr r) :
    UserWalk methodOk oauth auth token w id ∧
      WalkRun bo w id (HttpCrashReader methodOk oauth auth related order parse print compile cfg n L posts token w id)
        s tr r := by
  refine ⟨fairWalk_user hw, walkRun_mono (fun q i hi => ?_) h⟩
  obtain ⟨evs', hany⟩ := atRest_any hc
  cases i with
  | failed d => trivial
  | got es now more => exact ⟨evs', c, posts, hany, List.prefix_refl _, hi.2.2⟩

/-- A walk, by way of the proxy and the gateway, over a source with two counters, one after the
other: what it may ask is what the theorems ask for, and they say of it what it delivers. -/
example : ∃ evs c, AtRest { maxPerSource := 5 } 1 (fun _ => [0]) evs c (twoMessages (longCounter 3) (longCounter 3)) "a".toList ∧
    ∀ tr r, WalkRun dataReaderBackoff (dataReaderCfg readOfMetrics) "a".toList
        (HttpReader (fun _ => true) doorUser (fun i _ => decide (i = "a".toList)) (fun _ _ => none) id
          (fun _ => none) (fun _ => []) (fun _ => none) c "t".toList (dataReaderCfg readOfMetrics) "a".toList
          [appMessage 1 (longCounter 3), appMessage 2 (longCounter 3)])
        (walkInit (dataReaderCfg readOfMetrics) 0) tr r →
      ∃ part shown : List WireEnvelope, (delivered tr).flatten = shown.map envelopeCode ∧
        SomeWire part [appMessage 1 (longCounter 3), appMessage 2 (longCounter 3)] ∧ part.length = shown.length := by
  obtain ⟨evs, c, h⟩ := atRest_counters 3 (by decide)
  refine ⟨evs, c, h, fun tr r hrun => ?_⟩
  obtain ⟨hu, hx⟩ := C170_covers h fairHttpWalk_a hrun
  have hp : postedFor (twoMessages (longCounter 3) (longCounter 3)) "a".toList =
      [appMessage 1 (longCounter 3), appMessage 2 (longCounter 3)] := by
    simp [twoMessages, postedFor, appMessage]
  have hspread : SpreadWire (postedFor (twoMessages (longCounter 3) (longCounter 3)) "a".toList) := by
    rw [hp]
    intro x hx y hy hlt
    simp only [List.mem_cons, List.not_mem_nil, or_false] at hx hy
    rcases hx with rfl | rfl <;> rcases hy with rfl | rfl <;> simp [appMessage, howManyWire] at hlt ⊢
  obtain ⟨part, shown, h1, h2, h3, -, -⟩ := C170_once_partial hu hspread (by
    rw [hp]
    intro e he
    simp only [List.mem_cons, List.not_mem_nil, or_false] at he
    rcases he with rfl | rfl <;> simp [appMessage]) hx
  rw [hp] at h3
  exact ⟨part, shown, h1, h3, h2.length_eq⟩

theorem cutTail_none (p : Envelope → Bool) (es : List Envelope) (h : ∀ e ∈ es, p e = false) : cutTail p es = es := by
  unfold cutTail
  have : es.reverse.dropWhile p = es.reverse := by
    cases hr : es.reverse with
    | nil => rfl
    | cons x t =>
      have hx : x ∈ es := List.mem_reverse.1 (by rw [hr]; exact List.mem_cons_self)
      rw [List.dropWhile_cons_of_neg (by rw [h x hx]; decide)]
  rw [this, List.reverse_reverse]

theorem walkTrim_none (c : WalkCfg) (re : Bool) (now : Int) (es : List Envelope)
    (h1 : ∀ e ∈ es, e.timestamp ≤ now - c.delay) (h2 : ∀ e ∈ es, ∀ stop, c.stop = some stop → e.timestamp < stop) :
    walkTrim c re now es = es := by
  have hcut := cutTail_none (fun e => !decide (e.timestamp ≤ now - c.delay)) es fun e he => by
    simpa using h1 e he
  unfold walkTrim
  simp only [hcut, ite_self]
  cases hs : c.stop with
  | none => rfl
  | some stop =>
    exact cutTail_none _ es fun e he => by simpa using h2 e he stop hs

theorem wanted_in {compile : Str → Option (Str → Bool)} {w : WalkCfg} {id : Str} {s stop : Int} (hstop : w.stop = some stop)
    (h0 : stop ≠ 0) {log : List WireEnvelope} {e : WireEnvelope} (he : e ∈ wanted compile 0 (walkRequest w id s) log) :
    e.timestamp < stop ∧ ∃ o ∈ log, o.timestamp = e.timestamp := by
  unfold wanted at he
  have he := List.mem_of_mem_take he
  obtain ⟨he, hty⟩ := List.mem_filter.1 he
  obtain ⟨o, ho, hp⟩ := List.mem_filterMap.1 he
  obtain ⟨ho1, hw1⟩ := List.mem_filter.1 ho
  have hts := wireProject_ts hp
  have hstop' : (walkRequest w id s).stop = stop := by
    simp only [walkRequest, hstop, Option.getD_some]
  rw [hstop', if_neg h0] at hw1
  simp only [walkRequest, Bool.and_eq_true, decide_eq_true_eq] at hw1
  exact ⟨by rw [hts]; exact hw1.2, o, ho1, hts.symm⟩

section
variable {methodOk : Str → Bool} {oauth : Str → Option UserCtx} {auth : Str → Str → Bool}
    {related : List Str → Str → Option Expansions} {order : List Str → List Str}
    {parse : Str → Option PExpr} {print : PExpr → Str} {compile : Str → Option (Str → Bool)}
    {cfg : Config} {n : Nat} {L : Str → List Nat} {c : Cluster} {pre : List PruneEvent} {post : List XEvent}
    {before after : List SendReq} {owners : List Nat} {token id : Str} {w : WalkCfg} {stop : Int}

/-- A page of a walk over a cluster that has recovered. -/
theorem recovered_page (h : Recovered cfg n L pre post c before after owners id)
    (hw : FairHttpWalk methodOk oauth auth compile token w id stop)
    (hroom : ((postedFor (before ++ after) id).length : Int) < if w.limit.getD 0 = 0 then 100 else w.limit.getD 0)
    (hfits : ∀ log, RecoveredLog before after id log →
      (readRespProto.encode (some (wanted compile 0 (walkRequest w id w.start) log))).length ≤ grpcMaxMessage)
    {j : Nat} (hj : j < n) {ws : List WireEnvelope}
    (hp : HttpPage methodOk oauth auth related order parse print compile c j token w id w.start (some ws)) :
    ∃ log, RecoveredLog before after id log ∧ ws = wanted compile 0 (walkRequest w id w.start) log := by
  obtain ⟨path, params, hseen, hfair, -⟩ := fairRead_page (related := related) (order := order) (parse := parse)
    (print := print) hw hw.walk.fits.1 hw.walk.window
  have hstop : (walkRequest w id w.start).stop = stop := by simp only [walkRequest, hw.walk.ends, Option.getD_some]
  have hnow : ∀ now log, wanted compile now (asked id w.start (walkOpts w)) log =
      wanted compile 0 (walkRequest w id w.start) log := by
    intro now log
    rw [C164_asked]
    unfold wanted
    rw [hstop, if_neg hw.walk.stop0, if_neg hw.walk.stop0]
  unfold HttpPage at hp
  rcases hp with ⟨now, path', params', hseen', hread⟩ | ⟨hno, -⟩
  · have hsame := Option.some.inj (hseen.symm.trans hseen')
    clear hseen hseen'
    have h1 : path = path' := congrArg Prod.fst hsame
    have h2 : params = params' := congrArg Prod.snd hsame
    clear hsame
    subst h1 h2
    rcases hread with hread | ⟨hno, -⟩
    · obtain ⟨log, g1, g2⟩ := (C167_recovers_partial methodOk oauth auth related order parse print compile now h hfair
        (by rw [C164_asked]; exact hroom) hj (fun log hl => by rw [hnow]; exact hfits log hl)).2 _ hread
      rw [hnow] at g2
      exact ⟨log, g1, Option.some.inj g2⟩
    · cases hno
  · cases hno

/-- **After a recovery a walk delivers all that was sent since.** Whatever happened before, and
however often its reads fail: once a read is answered, the walk has delivered all that was sent
for the source since the cluster recovered and that it asks for, with nothing else before it but some of
what was sent before, in the order of time. Missing from the full claim: more envelopes than one page has
room for (`C164` for a cluster in which nothing was lost). -/
theorem C170_recovers_partial {β : Type} {bo : Backoff β} {b0 : β} (h : Recovered cfg n L pre post c before after owners id)
    (hw : FairHttpWalk methodOk oauth auth compile token w id stop)
    (hroom : ((postedFor (before ++ after) id).length : Int) < if w.limit.getD 0 = 0 then 100 else w.limit.getD 0)
    (hfits : ∀ log, RecoveredLog before after id log →
      (readRespProto.encode (some (wanted compile 0 (walkRequest w id w.start) log))).length ≤ grpcMaxMessage)
    {tr : List (WalkIn × Option (List Envelope))} {r : Option (WalkState β)}
    (hrun : WalkRun bo w id (RecoveredReader methodOk oauth auth related order parse print compile c n (before ++ after)
      token w id) (walkInit w b0) tr r) (hgot : ∃ x ∈ tr, ∃ es now more, x.1 = .got es now more) :
    ∃ log, RecoveredLog before after id log ∧
      (wanted compile 0 (walkRequest w id w.start) log).map envelopeCode <+: (delivered tr).flatten := by
  have hs : (walkInit w b0).start = w.start := rfl
  generalize walkInit w b0 = s at hrun hs
  have hpage : ∀ {s : WalkState β} {es now more v o}, s.start = w.start →
      RecoveredReader methodOk oauth auth related order parse print compile c n (before ++ after) token w id
        (walkRequest w id s.start) (.got es now more) → walkStep bo w s (.got es now more) = (v, o) →
      ∃ log, RecoveredLog before after id log ∧
        (wanted compile 0 (walkRequest w id w.start) log).map envelopeCode = v.getD [] := by
    intro s es now more v o hs he hst
    obtain ⟨hold, j, ws, hj, hp, rfl⟩ := he
    rw [hs] at hp
    obtain ⟨log, hl, rfl⟩ := recovered_page h hw hroom hfits hj hp
    refine ⟨log, hl, ?_⟩
    have htrim := walkTrim_none w s.receivedEmpty now ((wanted compile 0 (walkRequest w id w.start) log).map envelopeCode)
      (by
        intro e he
        obtain ⟨e', he', rfl⟩ := List.mem_map.1 he
        obtain ⟨-, o', ho, ht⟩ := wanted_in hw.walk.ends hw.walk.stop0 he'
        show e'.timestamp ≤ _
        rw [← ht]
        refine hold o' ?_
        obtain ⟨⟨old, h1, h2⟩, -⟩ := hl
        rw [postedFor_append]
        rcases List.mem_append.1 (h2.mem_iff.1 ho) with ho | ho
        · exact List.mem_append_left _ (someWire_mem h1 ho)
        · exact List.mem_append_right _ ho)
      (by
        intro e he t ht
        obtain ⟨e', he', rfl⟩ := List.mem_map.1 he
        have := (wanted_in hw.walk.ends hw.walk.stop0 he').1
        have e2 := hw.walk.ends
        rw [ht] at e2
        cases e2
        exact this)
    simp only [walkStep] at hst
    rw [htrim] at hst
    split at hst
    · next hnil =>
      simp only [Prod.mk.injEq] at hst
      rw [← hst.1]
      exact List.getLast?_eq_none_iff.1 hnil
    · simp only [Prod.mk.injEq] at hst
      rw [← hst.1]
      rfl
  induction hrun with
  | nil => obtain ⟨x, hx, -⟩ := hgot; cases hx
  | @done s i v he hst =>
    cases i with
    | failed d =>
      obtain ⟨x, hx, es, now, more, hxe⟩ := hgot
      rw [List.mem_singleton.1 hx] at hxe
      cases hxe
    | got es now more =>
      obtain ⟨log, g1, g2⟩ := hpage hs he hst
      refine ⟨log, g1, ?_⟩
      rw [g2]
      cases v <;> simp [delivered]
  | @step s s' i v tr r he hst _ ih =>
    cases i with
    | failed d =>
      have hv : v = none ∧ s'.start = s.start := by
        simp only [walkStep] at hst
        split at hst
        · cases hst
        · simp only [Prod.mk.injEq] at hst
          refine ⟨hst.1.symm, ?_⟩
          have h2 := hst.2
          split at h2
          · cases h2; rfl
          · cases h2
      obtain ⟨rfl, hs'⟩ := hv
      obtain ⟨log, g1, g2⟩ := ih (by
        obtain ⟨x, hx, es, now, more, hxe⟩ := hgot
        rcases List.mem_cons.1 hx with rfl | hx
        · cases hxe
        · exact ⟨x, hx, es, now, more, hxe⟩) (hs'.trans hs)
      exact ⟨log, g1, g2⟩
    | got es now more =>
      obtain ⟨log, g1, g2⟩ := hpage hs he hst
      refine ⟨log, g1, ?_⟩
      rw [g2]
      cases v <;> simp [delivered]

/-- A page of a walk over a cluster that has recovered, if a page has not room for all. -/
theorem recovered_some (h : Recovered cfg n L pre post c before after owners id)
    (hw : FairHttpWalk methodOk oauth auth compile token w id stop) {s : Int} (hs : FitsInt64 s) (hss : s ≤ stop)
    {j : Nat} (hj : j < n) {ws : List WireEnvelope}
    (hp : HttpPage methodOk oauth auth related order parse print compile c j token w id s (some ws)) :
    ∃ log, RecoveredLog before after id log ∧ ws <+: matching compile 0 (walkRequest w id s) log ∧
      (ws = matching compile 0 (walkRequest w id s) log ∨ ws ≠ []) := by
  obtain ⟨path, params, hseen, hfair, -⟩ := fairRead_page (related := related) (order := order) (parse := parse)
    (print := print) hw hs hss
  have hstop : (walkRequest w id s).stop = stop := by simp only [walkRequest, hw.walk.ends, Option.getD_some]
  have hnow : ∀ now log, matching compile now (asked id s (walkOpts w)) log = matching compile 0 (walkRequest w id s) log := by
    intro now log
    rw [C164_asked]
    unfold matching
    rw [hstop, if_neg hw.walk.stop0, if_neg hw.walk.stop0]
  unfold HttpPage at hp
  rcases hp with ⟨now, path', params', hseen', hread⟩ | ⟨hno, -⟩
  · have hsame := Option.some.inj (hseen.symm.trans hseen')
    clear hseen hseen'
    have h1 : path = path' := congrArg Prod.fst hsame
    have h2 : params = params' := congrArg Prod.snd hsame
    clear hsame
    subst h1 h2
    rcases hread with hread | ⟨hno, -⟩
    · obtain ⟨ws', ⟨log, g1, g2, g3⟩, g4⟩ := (C167_pages_partial methodOk oauth auth related order parse print compile now h
        hfair hj).2 _ hread
      rcases g4 with g4 | ⟨g4, -⟩
      · cases g4
        rw [hnow] at g2 g3
        refine ⟨log, g1, g2, g3.imp_right fun g3 => ?_⟩
        rintro rfl
        rw [C164_asked] at g3
        have hl : (walkRequest w id s).limit = w.limit.getD 0 := rfl
        have h0 := hw.walk.limit.1
        rw [hl] at g3
        simp only [List.length_nil, Int.natCast_zero] at g3
        split at g3 <;> omega
      · cases g4
    · cases hno
  · cases hno

/-- After a recovery every node answers every read of the walk, unless a page of it is too large for
a message. -/
theorem C170_answered_partial (h : Recovered cfg n L pre post c before after owners id)
    (hw : FairHttpWalk methodOk oauth auth compile token w id stop) {s : Int} (hs : FitsInt64 s) (hss : s ≤ stop)
    {j : Nat} (hj : j < n) :
    (∃ ws, HttpPage methodOk oauth auth related order parse print compile c j token w id s (some ws)) ∨
    ∃ log ws, RecoveredLog before after id log ∧ ws <+: matching compile 0 (walkRequest w id s) log ∧
      grpcMaxMessage < (readRespProto.encode (some ws)).length := by
  obtain ⟨path, params, hseen, hfair, -⟩ := fairRead_page (related := related) (order := order) (parse := parse)
    (print := print) hw hs hss
  have hstop : (walkRequest w id s).stop = stop := by simp only [walkRequest, hw.walk.ends, Option.getD_some]
  obtain ⟨⟨out, hout⟩, hall⟩ := C167_pages_partial methodOk oauth auth related order parse print compile 0 h hfair hj
  obtain ⟨ws, ⟨log, g1, g2, -⟩, g4⟩ := hall _ hout
  rcases g4 with rfl | ⟨rfl, hbig⟩
  · exact .inl ⟨ws, .inl ⟨0, path, params, hseen, .inl hout⟩⟩
  · rw [C164_asked] at g2
    exact .inr ⟨log, ws, g1, g2, hbig⟩

theorem matching_le {s : Int} {log : List WireEnvelope} (h : log.Pairwise fun x y => x.timestamp ≤ y.timestamp) :
    (matching compile 0 (walkRequest w id s) log).Pairwise fun x y => x.timestamp ≤ y.timestamp := by
  unfold matching
  rw [if_neg (show ¬ (walkRequest w id s).descending = true from Bool.false_ne_true)]
  refine List.Pairwise.filter _ ((List.pairwise_filterMap).2 ((h.filter _).imp ?_))
  intro x y hxy b hb b' hb'
  rw [wireProject_ts hb, wireProject_ts hb']
  exact hxy

theorem matching_in {s : Int} (hstop : w.stop = some stop) (h0 : stop ≠ 0) {log : List WireEnvelope} {e : WireEnvelope}
    (he : e ∈ matching compile 0 (walkRequest w id s) log) :
    (s ≤ e.timestamp ∧ e.timestamp < stop) ∧ ∃ o ∈ log, o.timestamp = e.timestamp ∧ walkShows compile w o = some e := by
  unfold matching at he
  rw [if_neg (show ¬ (walkRequest w id s).descending = true from Bool.false_ne_true)] at he
  obtain ⟨he, hty⟩ := List.mem_filter.1 he
  obtain ⟨o, ho, hp⟩ := List.mem_filterMap.1 he
  obtain ⟨ho1, hw1⟩ := List.mem_filter.1 ho
  have hts := wireProject_ts hp
  have hstop' : (walkRequest w id s).stop = stop := by
    simp only [walkRequest, hstop, Option.getD_some]
  rw [hstop', if_neg h0] at hw1
  rw [Bool.and_eq_true, decide_eq_true_eq, decide_eq_true_eq] at hw1
  refine ⟨by rw [hts]; exact hw1, o, ho1, hts.symm, ?_⟩
  unfold walkShows
  rw [Option.filter_eq_some_iff]
  exact ⟨hp, hty⟩

theorem matching_has {s : Int} (hstop : w.stop = some stop) (h0 : stop ≠ 0) {log : List WireEnvelope} {e x : WireEnvelope}
    (he : e ∈ log) (h1 : s ≤ e.timestamp) (h2 : e.timestamp < stop) (hx : walkShows compile w e = some x) :
    x ∈ matching compile 0 (walkRequest w id s) log := by
  unfold walkShows at hx
  rw [Option.filter_eq_some_iff] at hx
  unfold matching
  rw [if_neg (show ¬ (walkRequest w id s).descending = true from Bool.false_ne_true)]
  refine List.mem_filter.2 ⟨List.mem_filterMap.2 ⟨e, List.mem_filter.2 ⟨he, ?_⟩, hx.1⟩, hx.2⟩
  have hstop' : (walkRequest w id s).stop = stop := by
    simp only [walkRequest, hstop, Option.getD_some]
  rw [hstop', if_neg h0]
  rw [Bool.and_eq_true, decide_eq_true_eq, decide_eq_true_eq]
  exact ⟨h1, h2⟩

/-- **After a recovery a walk delivers all that was sent since, however many pages that takes** and
whichever owner answers each of them, a walk that ends, with a read that was answered and
a visitor that always wanted more, has delivered every envelope that was sent for the source since
the cluster recovered and that it asks for, if no other one of the source has its time. -/
theorem C170_all_partial {β : Type} {bo : Backoff β} {b0 : β} (h : Recovered cfg n L pre post c before after owners id)
    (hw : FairHttpWalk methodOk oauth auth compile token w id stop)
    {tr : List (WalkIn × Option (List Envelope))}
    (hrun : WalkRun bo w id (RecoveredReader methodOk oauth auth related order parse print compile c n (before ++ after)
      token w id) (walkInit w b0) tr none)
    (hmore : ∀ x ∈ tr, ∀ es now more, x.1 = .got es now more → more = true)
    (hlast : ∃ es now more v, tr.getLast? = some (.got es now more, v)) :
    ∀ e ∈ postedFor after id, (∀ o ∈ postedFor (before ++ after) id, o.timestamp = e.timestamp → o = e) →
      InWalk w e.timestamp → ∀ x, walkShows compile w e = some x →
      envelopeCode x ∈ (delivered tr).flatten := by
  intro e hafter hd hin x hx
  have hts := walkShows_ts hx
  have hes : e.timestamp < stop := hin.2 stop hw.walk.ends
  have hpage : ∀ {s : WalkState β} {es now v o}, FitsInt64 s.start → s.start ≤ e.timestamp →
      RecoveredReader methodOk oauth auth related order parse print compile c n (before ++ after) token w id
        (walkRequest w id s.start) (.got es now true) → walkStep bo w s (.got es now true) = (v, o) →
      (∃ b, v = some b ∧ envelopeCode x ∈ b) ∨
      ∃ s', o = some s' ∧ FitsInt64 s'.start ∧ s'.start ≤ e.timestamp := by
    intro s es now v o hs hse he hst
    obtain ⟨hold, j, ws, hj, hp, rfl⟩ := he
    obtain ⟨log, hl, hpre, hfull⟩ := recovered_some h hw hs (by omega) hj hp
    have hmem := matching_has (id := id) (compile := compile) hw.walk.ends hw.walk.stop0
      (hl.1.choose_spec.2.mem_iff.2 (List.mem_append_right _ hafter)) hse hes hx
    have hposted : ∀ o ∈ log, o ∈ postedFor (before ++ after) id := by
      intro o' ho
      obtain ⟨⟨old, h1, h2⟩, -⟩ := hl
      rw [postedFor_append]
      rcases List.mem_append.1 (h2.mem_iff.1 ho) with ho | ho
      · exact List.mem_append_left _ (someWire_mem h1 ho)
      · exact List.mem_append_right _ ho
    have hall : ∀ y ∈ ws, (s.start ≤ y.timestamp ∧ y.timestamp < stop) ∧
        ∃ o ∈ log, o.timestamp = y.timestamp ∧ walkShows compile w o = some y :=
      fun y hy => matching_in hw.walk.ends hw.walk.stop0 (hpre.subset hy)
    have htrim := walkTrim_none w s.receivedEmpty now (ws.map envelopeCode)
      (by
        intro y hy
        obtain ⟨y', hy', rfl⟩ := List.mem_map.1 hy
        obtain ⟨-, o', ho, ht, -⟩ := hall y' hy'
        show y'.timestamp ≤ _
        rw [← ht]
        exact hold o' (hposted o' ho))
      (by
        intro y hy t ht
        obtain ⟨y', hy', rfl⟩ := List.mem_map.1 hy
        have e2 := hw.walk.ends
        rw [ht] at e2
        cases e2
        exact (hall y' hy').1.2)
    simp only [walkStep] at hst
    rw [htrim] at hst
    by_cases hxw : x ∈ ws
    · left
      have hne : ws.map envelopeCode ≠ [] := fun h0 => by
        rw [List.map_eq_nil_iff.1 h0] at hxw
        cases hxw
      split at hst
      · next hnil => exact absurd (List.getLast?_eq_none_iff.1 hnil) hne
      · simp only [Prod.mk.injEq] at hst
        exact ⟨_, hst.1.symm, List.mem_map.2 ⟨x, hxw, rfl⟩⟩
    · right
      have hne : ws ≠ [] := hfull.resolve_left fun h => hxw (by rw [h]; exact hmem)
      obtain ⟨rest, hr⟩ := hpre
      have hlt := matching_le (compile := compile) (w := w) (id := id) (s := s.start) hl.2
      rw [← hr] at hmem hlt
      have hxr := (List.mem_append.1 hmem).resolve_left hxw
      split at hst
      · next hnil => exact absurd (List.map_eq_nil_iff.1 (List.getLast?_eq_none_iff.1 hnil)) hne
      · next last hl' =>
        obtain ⟨y, hy, rfl⟩ := List.mem_map.1 (List.mem_of_getLast? hl')
        have hyx : y.timestamp < x.timestamp := by
          refine lt_of_le_of_ne ((List.pairwise_append.1 hlt).2.2 y hy x hxr) fun heq => hxw ?_
          obtain ⟨-, o', ho, ht, hsh⟩ := hall y hy
          rw [hd o' (hposted o' ho) (by omega), hx] at hsh
          cases hsh
          exact hy
        have hy1 := (hall y hy).1
        have hover : ¬ (y.timestamp + 1 ≥ stop) := by omega
        simp only [Prod.mk.injEq, hw.walk.ends, Bool.not_true, Bool.false_or, decide_eq_true_eq] at hst
        rw [if_neg (show ¬ ((envelopeCode y).timestamp + 1 ≥ stop) from hover)] at hst
        refine ⟨_, hst.2.symm, ?_, ?_⟩
        · have h2 := hw.walk.fits.2
          unfold FitsInt64 at hs h2 ⊢
          show _ ≤ y.timestamp + 1 ∧ y.timestamp + 1 < _
          omega
        · show y.timestamp + 1 ≤ _
          omega
  have hs : FitsInt64 (walkInit w b0).start := hw.walk.fits.1
  have hse : (walkInit w b0).start ≤ e.timestamp := hin.1
  generalize walkInit w b0 = s at hrun hs hse
  generalize hr : (none : Option (WalkState β)) = r at hrun
  induction hrun with
  | nil => cases hr
  | @done s i v he hst =>
    cases i with
    | failed d =>
      obtain ⟨es, now, more, v', h1⟩ := hlast
      cases h1
    | got es now more =>
      have := hmore _ (List.mem_singleton.2 rfl) es now more rfl
      subst this
      rcases hpage hs hse he hst with ⟨b, rfl, hb⟩ | ⟨s', h1, -⟩
      · simpa [delivered] using hb
      · cases h1
  | @step s s' i v tr r he hst hrest ih =>
    have hcons : ∀ y ∈ (delivered tr).flatten, y ∈ (delivered ((i, v) :: tr)).flatten := by
      intro y hy
      cases v with
      | none => exact hy
      | some b =>
        show y ∈ (b :: delivered tr).flatten
        rw [List.flatten_cons]
        exact List.mem_append_right _ hy
    have hlast' : tr ≠ [] → ∃ es now more v, tr.getLast? = some (.got es now more, v) := by
      intro hne
      obtain ⟨es, now, more, v', h1⟩ := hlast
      refine ⟨es, now, more, v', ?_⟩
      rw [List.getLast?_cons_of_ne_nil hne] at h1
      exact h1
    have hne : tr ≠ [] := by
      rintro rfl
      cases hrest
      cases hr
    have hmore' : ∀ x ∈ tr, ∀ es now more, x.1 = .got es now more → more = true :=
      fun x hx => hmore x (List.mem_cons_of_mem _ hx)
    cases i with
    | failed d =>
      have hv : s'.start = s.start := by
        simp only [walkStep] at hst
        split at hst
        · cases hst
        · simp only [Prod.mk.injEq] at hst
          have h2 := hst.2
          split at h2
          · cases h2; rfl
          · cases h2
      exact hcons _ (ih hmore' (hlast' hne) (by rw [hv]; exact hs) (by rw [hv]; exact hse) hr)
    | got es now more =>
      have := hmore _ List.mem_cons_self es now more rfl
      subst this
      rcases hpage hs hse he hst with ⟨b, rfl, hb⟩ | ⟨s2, h1, h2, h3⟩
      · show _ ∈ (b :: delivered tr).flatten
        rw [List.flatten_cons]
        exact List.mem_append_left _ hb
      · cases h1
        exact hcons _ (ih hmore' (hlast' hne) h2 h3 hr)

/-- What a recovered cluster answers is among what `C170_once_partial` is about. -/
theorem C170_recovered_covers {β : Type} {bo : Backoff β} {s : WalkState β}
    (h : AnyHistory cfg n L (pre ++ post.map .step) c (before ++ after))
    {tr : List (WalkIn × Option (List Envelope))} {r : Option (WalkState β)}
    (hrun : WalkRun bo w id (RecoveredReader methodOk oauth auth related order parse print compile c n (before ++ after)
      token w id) s tr r) :
    WalkRun bo w id (HttpCrashReader methodOk oauth auth related order parse print compile cfg n L (before ++ after) token
      w id) s tr r := by
  refine walkRun_mono (fun q i hi => ?_) hrun
  cases i with
  | failed d => trivial
  | got es now more =>
    obtain ⟨-, j, ws, -, hp⟩ := hi
    exact ⟨_, c, _, h, List.prefix_refl _, j, ws, hp⟩
end

/-- A walk over all of `a` from 0 to 20 by a user with the token `t`, who may read `a`. -/
theorem fairHttpWalk_all : FairHttpWalk (fun _ => true) doorUser (fun i _ => decide (i = "a".toList)) (fun _ => none)
    "t".toList { stop := some 20 } "a".toList 20 where
  walk := {
    ends := rfl
    stop0 := by decide
    fits := by unfold FitsInt64; norm_num
    window := by decide
    known := by intro k; simp
    limit := by decide
    filter := .inl rfl
    size := by
      intro s hs
      have h1 := intField_len 2 (by omega) hs
      have h2 : (encFields (strField 1 "a".toList)).length ≤ 10 := by decide +kernel
      have h3 : (encFields (intField 3 20 ++ (intField 4 0 ++ ([] ++
        (boolField 6 false ++ strField 7 []))))).length ≤ 20 := by decide +kernel
      have h4 : (readReqProto.encode (walkRequest { stop := some 20 } "a".toList s)).length =
          (encFields (strField 1 "a".toList)).length + ((encFields (intField 2 s)).length +
          (encFields (intField 3 20 ++ (intField 4 0 ++ ([] ++
        (boolField 6 false ++ strField 7 []))))).length) := by
        rw [← encLen_append, ← encLen_append]
        rfl
      rw [h4]
      unfold grpcMaxMessage
      omega }
  clean := ⟨by unfold CleanId; decide +kernel, by decide, by decide⟩
  method := rfl
  may := ⟨by decide, ⟨false, "t".toList, 0⟩, by decide, .inr (by decide)⟩

/-- A walk over `a` from 0 to 3, one envelope at a time. -/
theorem fairHttpWalk_one : FairHttpWalk (fun _ => true) doorUser (fun i _ => decide (i = "a".toList)) (fun _ => none)
    "t".toList { stop := some 3, limit := some 1 } "a".toList 3 where
  walk := {
    ends := rfl
    stop0 := by decide
    fits := by unfold FitsInt64; norm_num
    window := by decide
    known := by intro k; simp
    limit := by decide
    filter := .inl rfl
    size := by
      intro s hs
      have h1 := intField_len 2 (by omega) hs
      have h2 : (encFields (strField 1 "a".toList)).length ≤ 10 := by decide +kernel
      have h3 : (encFields (intField 3 3 ++ (intField 4 1 ++ ([] ++
        (boolField 6 false ++ strField 7 []))))).length ≤ 20 := by decide +kernel
      have h4 : (readReqProto.encode (walkRequest { stop := some 3, limit := some 1 } "a".toList s)).length =
          (encFields (strField 1 "a".toList)).length + ((encFields (intField 2 s)).length +
          (encFields (intField 3 3 ++ (intField 4 1 ++ ([] ++
        (boolField 6 false ++ strField 7 []))))).length) := by
        rw [← encLen_append, ← encLen_append]
        rfl
      rw [h4]
      unfold grpcMaxMessage
      omega }
  clean := ⟨by unfold CleanId; decide +kernel, by decide, by decide⟩
  method := rfl
  may := ⟨by decide, ⟨false, "t".toList, 0⟩, by decide, .inr (by decide)⟩

/-- A case of `C170_all_partial`, of pages with one envelope each: the walk has a run that ends,
and it delivers the log that was sent after the recovery. -/
example : ∃ pre post c, Recovered { maxPerSource := 5 } 2 (fun _ => [1]) pre post c
      [{ envelopes := some [appLog 1 [104, 105]] }] [{ envelopes := some [appLog 2 [33]] }] [1] "a".toList ∧
    ∃ tr, WalkRun dataReaderBackoff { stop := some 3, limit := some 1 } "a".toList
        (RecoveredReader (fun _ => true) doorUser (fun i _ => decide (i = "a".toList)) (fun _ _ => none) id
          (fun _ => none) (fun _ => []) (fun _ => none) c 2
          ([{ envelopes := some [appLog 1 [104, 105]] }] ++ [{ envelopes := some [appLog 2 [33]] }])
          "t".toList { stop := some 3, limit := some 1 } "a".toList)
        (walkInit { stop := some 3, limit := some 1 } 0) tr none ∧
      envelopeCode (appLog 2 [33]) ∈ (delivered tr).flatten := by
  obtain ⟨pre, post, c, h⟩ := recovered_later
  have hp1 : postedFor [{ envelopes := some [appLog 1 [104, 105]] }] "a".toList = [appLog 1 [104, 105]] := by
    simp [postedFor, appLog]
  have hp2 : postedFor [{ envelopes := some [appLog 2 [33]] }] "a".toList = [appLog 2 [33]] := by
    simp [postedFor, appLog]
  have hp : postedFor ([{ envelopes := some [appLog 1 [104, 105]] }] ++ [{ envelopes := some [appLog 2 [33]] }]) "a".toList =
      [appLog 1 [104, 105], appLog 2 [33]] := by
    rw [postedFor_append, hp1, hp2]
    rfl
  have hlog : ∀ log, RecoveredLog [{ envelopes := some [appLog 1 [104, 105]] }] [{ envelopes := some [appLog 2 [33]] }]
      "a".toList log → appLog 2 [33] ∈ log ∧ log.length ≤ 2 ∧ ∀ e ∈ log, e = appLog 1 [104, 105] ∨ e = appLog 2 [33] := by
    rintro log ⟨⟨old, ho, hl⟩, -⟩
    rw [hp1] at ho
    rw [hp2] at hl
    refine ⟨hl.mem_iff.2 (by simp), ?_, ?_⟩
    · obtain ⟨rest, hr⟩ := ho
      have h1 := hr.length_eq
      have h2 := hl.length_eq
      simp only [List.length_append, List.length_singleton] at h1 h2
      omega
    · intro e he
      rcases List.mem_append.1 (hl.mem_iff.1 he) with he | he
      · exact .inl (List.mem_singleton.1 (someWire_mem ho he))
      · exact .inr (List.mem_singleton.1 he)
  have hmatch : ∀ (s : Int) log, matching (fun _ => none) 0
      (walkRequest { stop := some 3, limit := some 1 } "a".toList s) log =
      ((log.filter fun e => decide (s ≤ e.timestamp) && decide (e.timestamp < 3)).filterMap (wireProject none)).filter
        fun _ => true := fun _ _ => rfl
  have hpage : ∀ s : Int, FitsInt64 s → s ≤ 2 → ∃ (ws : List WireEnvelope) (y : WireEnvelope),
      HttpPage (fun _ => true) doorUser (fun i _ => decide (i = "a".toList)) (fun _ _ => none) id
          (fun _ => none) (fun _ => []) (fun _ => none) c 0 "t".toList { stop := some 3, limit := some 1 } "a".toList s
          (some ws) ∧ ws.getLast? = some y ∧ (s ≤ y.timestamp ∧ (y.timestamp = 1 ∨ y.timestamp = 2)) ∧
        ∀ e ∈ ws, e.timestamp < 3 := by
    intro s hs hs2
    have hin : ∀ log, RecoveredLog [{ envelopes := some [appLog 1 [104, 105]] }] [{ envelopes := some [appLog 2 [33]] }]
        "a".toList log → ∀ e ∈ matching (fun _ => none) 0 (walkRequest { stop := some 3, limit := some 1 } "a".toList s) log,
        (s ≤ e.timestamp ∧ (e.timestamp = 1 ∨ e.timestamp = 2)) ∧ e.timestamp < 3 := by
      intro log hl e he
      obtain ⟨⟨g1, g2⟩, o, ho, g3, -⟩ := matching_in (stop := 3) rfl (by decide) he
      refine ⟨⟨g1, ?_⟩, g2⟩
      rw [← g3]
      exact ((hlog log hl).2.2 o ho).imp (fun e => by rw [e]; rfl) (fun e => by rw [e]; rfl)
    rcases C170_answered_partial (related := fun _ _ => none) (order := id) (parse := fun _ => none) (print := fun _ => [])
      h fairHttpWalk_one hs (by omega) (j := 0) (by decide) with ⟨ws, hp⟩ | ⟨log, ws, hl, hpre, hbig⟩
    · obtain ⟨log, hl, hpre, hfull⟩ := recovered_some h fairHttpWalk_one hs (by omega) (by decide) hp
      have hne : ws ≠ [] := by
        rcases hfull with rfl | hne
        · have := matching_has (compile := fun _ => none) (w := { stop := some 3, limit := some 1 }) (id := "a".toList) (s := s)
            (stop := 3) rfl (by decide) (hlog log hl).1 (x := appLog 2 [33]) hs2 (by decide) rfl
          exact List.ne_nil_of_mem this
        · exact hne
      refine ⟨ws, ws.getLast hne, hp, List.getLast?_eq_some_getLast hne, ?_, ?_⟩
      · exact (hin log hl _ (hpre.subset (List.getLast_mem hne))).1
      · exact fun e he => (hin log hl e (hpre.subset he)).2
    · exfalso
      have hlen : ws.length ≤ 2 := by
        refine le_trans hpre.length_le (le_trans ?_ (hlog log hl).2.1)
        rw [hmatch]
        exact le_trans (List.length_filter_le ..) (le_trans (List.length_filterMap_le ..) (List.length_filter_le ..))
      have hB : ∀ e ∈ ws, (wireEnvelopeProto.encode e).length ≤ 22 := by
        intro e he
        have he := hpre.subset he
        rw [hmatch] at he
        obtain ⟨o, ho, hoe⟩ := List.mem_filterMap.1 (List.mem_filter.1 he).1
        rcases (hlog log hl).2.2 o (List.mem_filter.1 ho).1 with rfl | rfl
        · cases hoe
          exact oneLog_bytes.1
        · cases hoe
          exact oneLog_bytes.2
      have hmax : grpcMaxMessage = 4194304 := rfl
      exact absurd hbig (not_lt.2 (answer_bound hB (by rw [hmax]; omega)))
  have hstep : ∀ (s : WalkState Int) (ws : List WireEnvelope) (y : WireEnvelope), ws.getLast? = some y → (∀ e ∈ ws, e.timestamp < 3) →
      walkStep dataReaderBackoff { stop := some 3, limit := some 1 } s
        (.got (ws.map envelopeCode) 2000000000 true) = (some (ws.map envelopeCode),
          if y.timestamp + 1 ≥ 3 then none else some { start := y.timestamp + 1, b := dataReaderBackoff.reset s.b }) := by
    intro s ws y hy hlt
    have htrim := walkTrim_none { stop := some 3, limit := some 1 } s.receivedEmpty 2000000000 (ws.map envelopeCode)
      (by
        intro e he
        obtain ⟨e', he', rfl⟩ := List.mem_map.1 he
        have := hlt e' he'
        show e'.timestamp ≤ 2000000000 - 1000000000
        omega)
      (by
        intro e he t ht
        obtain ⟨e', he', rfl⟩ := List.mem_map.1 he
        cases ht
        exact hlt e' he')
    simp only [walkStep]
    rw [htrim, List.getLast?_map, hy]
    simp only [Option.map_some, Bool.not_true, Bool.false_or, decide_eq_true_eq]
    rfl
  have hread : ∀ (s : Int) (ws : List WireEnvelope), HttpPage (fun _ => true) doorUser (fun i _ => decide (i = "a".toList))
      (fun _ _ => none) id (fun _ => none) (fun _ => []) (fun _ => none) c 0 "t".toList
      { stop := some 3, limit := some 1 } "a".toList s (some ws) →
      RecoveredReader (fun _ => true) doorUser (fun i _ => decide (i = "a".toList)) (fun _ _ => none) id
          (fun _ => none) (fun _ => []) (fun _ => none) c 2
          ([{ envelopes := some [appLog 1 [104, 105]] }] ++ [{ envelopes := some [appLog 2 [33]] }])
          "t".toList { stop := some 3, limit := some 1 } "a".toList
          (walkRequest { stop := some 3, limit := some 1 } "a".toList s) (.got (ws.map envelopeCode) 2000000000 true) := by
    intro s ws hpg
    refine ⟨?_, 0, ws, by decide, hpg, rfl⟩
    rw [hp]
    intro e he
    show e.timestamp ≤ 2000000000 - 1000000000
    simp only [List.mem_cons, List.not_mem_nil, or_false] at he
    rcases he with rfl | rfl <;> decide
  have hrun : ∃ tr, WalkRun dataReaderBackoff { stop := some 3, limit := some 1 } "a".toList
        (RecoveredReader (fun _ => true) doorUser (fun i _ => decide (i = "a".toList)) (fun _ _ => none) id
          (fun _ => none) (fun _ => []) (fun _ => none) c 2
          ([{ envelopes := some [appLog 1 [104, 105]] }] ++ [{ envelopes := some [appLog 2 [33]] }])
          "t".toList { stop := some 3, limit := some 1 } "a".toList)
        (walkInit { stop := some 3, limit := some 1 } 0) tr none ∧
      (∀ x ∈ tr, ∀ es now more, x.1 = .got es now more → more = true) ∧
      ∃ es now more v, tr.getLast? = some (.got es now more, v) := by
    obtain ⟨ws, y, g1, g2, ⟨-, g3⟩, g4⟩ := hpage 0 (by unfold FitsInt64; norm_num) (by decide)
    have st := hstep (walkInit { stop := some 3, limit := some 1 } 0) ws y g2 g4
    rcases g3 with g3 | g3
    · rw [g3] at st
      obtain ⟨ws', y', k1, k2, ⟨k5, k3⟩, k4⟩ := hpage 2 (by unfold FitsInt64; norm_num) (by decide)
      have st' := hstep { start := 2, b := dataReaderBackoff.reset 0 } ws' y' k2 k4
      have k6 : y'.timestamp = 2 := by omega
      rw [k6] at st'
      refine ⟨_, .step (hread _ _ g1) st (.done (hread _ _ k1) st'), ?_, _, _, _, _, rfl⟩
      intro x hx es now more he
      simp only [List.mem_cons, List.not_mem_nil, or_false] at hx
      rcases hx with rfl | rfl <;> (cases he; rfl)
    · rw [g3] at st
      refine ⟨_, .done (hread _ _ g1) st, ?_, _, _, _, _, rfl⟩
      intro x hx es now more he
      simp only [List.mem_cons, List.not_mem_nil, or_false] at hx
      rcases hx with rfl
      cases he
      rfl
  obtain ⟨tr, hrun, hmore, hlast⟩ := hrun
  refine ⟨pre, post, c, h, tr, hrun, C170_all_partial h fairHttpWalk_one hrun hmore hlast
    (appLog 2 [33]) (by rw [hp2]; simp) (fun o ho ht => ?_) ⟨by decide, fun t ht => ?_⟩ _ rfl⟩
  · rw [hp] at ho
    simp only [List.mem_cons, List.not_mem_nil, or_false] at ho
    rcases ho with rfl | rfl
    · cases ht
    · rfl
  · cases ht
    decide

/-- A case of `C170_recovers_partial`: a walk over a source of which a log was lost, of two nodes, delivers the
later log once one of its reads is answered. -/
example : ∃ pre post c, Recovered { maxPerSource := 5 } 2 (fun _ => [1]) pre post c
      [{ envelopes := some [appLog 1 [104, 105]] }] [{ envelopes := some [appLog 2 [33]] }] [1] "a".toList ∧
    ∀ tr r, WalkRun dataReaderBackoff { stop := some 20 } "a".toList
        (RecoveredReader (fun _ => true) doorUser (fun i _ => decide (i = "a".toList)) (fun _ _ => none) id
          (fun _ => none) (fun _ => []) (fun _ => none) c 2
          ([{ envelopes := some [appLog 1 [104, 105]] }] ++ [{ envelopes := some [appLog 2 [33]] }])
          "t".toList { stop := some 20 } "a".toList)
        (walkInit { stop := some 20 } 0) tr r → (∃ x ∈ tr, ∃ es now more, x.1 = .got es now more) →
      envelopeCode (appLog 2 [33]) ∈ (delivered tr).flatten := by
  obtain ⟨pre, post, c, h⟩ := recovered_later
  refine ⟨pre, post, c, h, fun tr r hrun hgot => ?_⟩
  have hmax : grpcMaxMessage = 4194304 := rfl
  have hp1 : postedFor [{ envelopes := some [appLog 1 [104, 105]] }] "a".toList = [appLog 1 [104, 105]] := by
    simp [postedFor, appLog]
  have hp2 : postedFor [{ envelopes := some [appLog 2 [33]] }] "a".toList = [appLog 2 [33]] := by
    simp [postedFor, appLog]
  obtain ⟨log, ⟨⟨old, ho, hl⟩, -⟩, hpre⟩ := C170_recovers_partial h fairHttpWalk_all
    (by rw [postedFor_append, hp1, hp2]; decide) (by
    rintro log ⟨⟨old, ho, hl⟩, -⟩
    rw [hp1] at ho
    rw [hp2] at hl
    have hB : ∀ e ∈ log, (wireEnvelopeProto.encode e).length ≤ 22 := by
      intro e he
      rcases List.mem_append.1 (hl.mem_iff.1 he) with he | he
      · rw [List.mem_singleton.1 (someWire_mem ho he)]
        exact oneLog_bytes.1
      · rw [List.mem_singleton.1 he]
        exact oneLog_bytes.2
    show (readRespProto.encode (some (wanted (fun _ => none) 0 (walkRequest { stop := some 20 } "a".toList 0) log))).length ≤ _
    have hw := wanted_len (compile := fun _ => none) (now := 0) (q := walkRequest { stop := some 20 } "a".toList 0)
      (log := log) (B := 22) hB
    refine answer_bound hw.2 ?_
    rw [hmax]
    have h1 := hw.1
    have h2 : (if (walkRequest { stop := some 20 } "a".toList 0).limit = 0 then 100 else
      (walkRequest { stop := some 20 } "a".toList 0).limit).toNat = 100 := rfl
    rw [h2] at h1
    omega) hrun hgot
  refine hpre.subset (List.mem_map.2 ⟨_, ?_, rfl⟩)
  rw [hp1] at ho
  rw [hp2] at hl
  have hmem : appLog 2 [33] ∈ log := hl.mem_iff.2 (by simp)
  have hlen : log.length ≤ 2 := by
    obtain ⟨rest, hr⟩ := ho
    have h1 := hr.length_eq
    have h2 := hl.length_eq
    simp only [List.length_append, List.length_singleton] at h1 h2
    omega
  have hw : wanted (fun _ => none) 0 (walkRequest { stop := some 20 } "a".toList 0) log =
      ((((log.filter fun e => decide (0 ≤ e.timestamp) && decide (e.timestamp < 20)).filterMap (wireProject none)).filter
        fun _ => true)).take 100 := rfl
  show _ ∈ wanted (fun _ => none) 0 (walkRequest { stop := some 20 } "a".toList 0) log
  rw [hw, List.take_of_length_le]
  · simp only [List.filter_true, List.mem_filterMap, List.mem_filter]
    exact ⟨_, ⟨hmem, rfl⟩, rfl⟩
  · refine le_trans (List.length_filter_le ..) (le_trans (List.length_filterMap_le ..)
      (le_trans (List.length_filter_le ..) (by omega)))

/-- If equal times are not spread out, a walk delivers an envelope twice, out of order, from a
store to which nothing happens: the second envelope of time 1 is kept after the one of time 2, a
page ends with it, and the next page begins with time 2 again. -/
theorem C170_twice_false :
    ∃ ops st tr, Run (newStore { maxPerSource := 10 }) ops st ∧
      WalkRun alwaysDone { stop := some 20 } "a".toList
        (StoreReader (fun _ => none) st 1000000000) (walkInit { stop := some 20 } ()) tr none ∧
      st.envelopes "a".toList = [logAt 1 "q", logAt 2 "p", logAt 1 "r"] ∧
      delivered tr = [[logAt 1 "q", logAt 2 "p", logAt 1 "r"], [logAt 2 "p"]] :=
  ⟨_, _, [(.got [logAt 1 "q", logAt 2 "p", logAt 1 "r"] 2000000000 true, some [logAt 1 "q", logAt 2 "p", logAt 1 "r"]),
      (.got [logAt 2 "p"] 2000000000 true, some [logAt 2 "p"]), (.got [] 2000000000 true, none)],
    run_after (cfg := { maxPerSource := 10 })
      (l := [("a", logAt 2 "p"), ("a", logAt 1 "q"), ("a", logAt 1 "r")]) (by decide),
    .step ⟨⟨0, rfl⟩, rfl, by decide⟩ rfl (.step ⟨⟨0, rfl⟩, rfl, by decide⟩ rfl (.done ⟨⟨0, rfl⟩, rfl, by decide⟩ rfl)),
    by decide, rfl⟩

end LogCache
