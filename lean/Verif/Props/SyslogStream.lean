import Verif.Proof.SyslogStream
import Verif.Props.Syslog

/-! # C110 and C111: syslog connections and messages -/

namespace LogCache
open Spec

/-! ## C110 -/

theorem feed_append {max : Nat} (parse : List UInt8 → Option SyslogMsg) (s : SyslogConn) (a b : List UInt8) :
    connFeed max parse (a ++ b) s =
      ((connFeed max parse a s).1 ++ (connFeed max parse b (connFeed max parse a s).2).1,
        (connFeed max parse b (connFeed max parse a s).2).2) := by
  obtain ⟨buf, st, dl⟩ := s
  unfold connFeed
  cases buf with
  | none => rfl
  | some buf =>
    simp only
    rw [← List.append_assoc, drain_append]
    cases hd : (drainFrames max parse st (buf ++ a)).2 with
    | none => simp
    | some r =>
      simp only [Bool.or_assoc]
      have e : ∀ x y : List SyslogIn, (!(x ++ y).isEmpty) = (!x.isEmpty || !y.isEmpty) := by
        intro x y; cases x <;> simp
      rw [e]

/-- Every piece of data arrives before the deadline of that moment. -/
def OnTime (max : Nat) (parse : List UInt8 → Option SyslogMsg) (idle : Int) : SyslogConn → List (Int × List UInt8) → Prop
  | _, [] => True
  | s, (t, c) :: es => t ≤ s.deadline ∧ OnTime max parse idle (connStep max parse idle s (.data t c)).2 es

/-- Pieces of data as events. -/
def dataEvents (cs : List (Int × List UInt8)) : List ConnEvent := cs.map fun x => .data x.1 x.2

/-- All octets of the pieces. -/
def allData (cs : List (Int × List UInt8)) : List UInt8 := cs.flatMap (·.2)

/-- The same connection apart from its deadline. -/
def SameConn (a b : SyslogConn) : Prop := a.buf = b.buf ∧ a.started = b.started

theorem feed_same {max : Nat} (parse : List UInt8 → Option SyslogMsg) {a b : SyslogConn} (h : SameConn a b) (c : List UInt8) :
    (connFeed max parse c a).1 = (connFeed max parse c b).1 ∧
      SameConn (connFeed max parse c a).2 (connFeed max parse c b).2 := by
  obtain ⟨b1, s1, d1⟩ := a
  obtain ⟨b2, s2, d2⟩ := b
  obtain ⟨rfl, rfl⟩ := h
  unfold connFeed
  cases b1 with
  | none => exact ⟨rfl, rfl, rfl⟩
  | some b => exact ⟨rfl, rfl, rfl⟩

theorem end_same {a b : SyslogConn} (h : SameConn a b) : (connEnd a).1 = (connEnd b).1 := by
  obtain ⟨b1, s1, d1⟩ := a
  obtain ⟨b2, s2, d2⟩ := b
  obtain ⟨rfl, rfl⟩ := h
  unfold connEnd
  cases b1 <;> rfl

theorem feed_nil {max : Nat} (parse : List UInt8 → Option SyslogMsg) (st : Bool) (dl : Int) :
    connFeed max parse [] { started := st, deadline := dl } = ([], { started := st, deadline := dl }) := by
  unfold connFeed
  simp only
  rw [drain_more parse (by simp) rfl]
  simp

theorem run_onTime {max : Nat} (parse : List UInt8 → Option SyslogMsg) (idle : Int) (cs : List (Int × List UInt8))
    (rest : List ConnEvent) (s s' : SyslogConn) (hs : SameConn s s') (ht : OnTime max parse idle s cs)
    (hd : connFeed max parse [] s' = ([], s')) :
    ∃ s'', SameConn s'' (connFeed max parse (allData cs) s').2 ∧
      connRun max parse idle s (dataEvents cs ++ rest) =
        (connFeed max parse (allData cs) s').1 ++ connRun max parse idle s'' rest := by
  induction cs generalizing s s' with
  | nil =>
    refine ⟨s, ?_, ?_⟩
    · show SameConn s (connFeed max parse [] s').2
      rw [hd]; exact hs
    · show connRun max parse idle s rest = (connFeed max parse [] s').1 ++ _
      rw [hd]; rfl
  | cons x cs ih =>
    obtain ⟨t, c⟩ := x
    obtain ⟨h1, h2⟩ := ht
    have hstep : connStep max parse idle s (.data t c) =
        ((connFeed max parse c s).1, if (connFeed max parse c s).1.isEmpty then (connFeed max parse c s).2
          else { (connFeed max parse c s).2 with deadline := t + idle }) := by
      unfold connStep
      simp only
      rw [if_neg (by omega)]
    obtain ⟨f1, f2⟩ := feed_same (max := max) parse hs c
    have hsame : SameConn (connStep max parse idle s (.data t c)).2 (connFeed max parse c s').2 := by
      rw [hstep]
      simp only
      split
      · exact f2
      · exact f2
    have hnil : connFeed max parse [] (connFeed max parse c s').2 = ([], (connFeed max parse c s').2) := by
      have := feed_append (max := max) parse s' c []
      rw [List.append_nil] at this
      have e1 := congrArg Prod.fst this
      have e2 := congrArg Prod.snd this
      simp only at e1 e2
      refine Prod.ext ?_ e2.symm
      have e3 := congrArg List.length e1
      rw [List.length_append] at e3
      exact List.length_eq_zero_iff.1 (by omega)
    obtain ⟨s'', g1, g2⟩ := ih _ _ hsame h2 hnil
    have hall : allData ((t, c) :: cs) = c ++ allData cs := rfl
    refine ⟨s'', ?_, ?_⟩
    · rw [hall, feed_append]
      exact g1
    · show connRun max parse idle s (.data t c :: (dataEvents cs ++ rest)) = _
      rw [connRun, g2, hall, feed_append]
      simp only
      rw [List.append_assoc]
      congr 1
      rw [hstep]
      exact f1

/-- How the network cuts the stream into pieces, and when they arrive, makes no difference,
as long as no deadline is missed. -/
theorem C110_segments (max : Nat) (parse : List UInt8 → Option SyslogMsg) (idle now : Int)
    (cs ds : List (Int × List UInt8)) (hc : OnTime max parse idle (newConn idle now) cs)
    (hd : OnTime max parse idle (newConn idle now) ds) (h : allData cs = allData ds) :
    connRun max parse idle (newConn idle now) (dataEvents cs) = connRun max parse idle (newConn idle now) (dataEvents ds) ∧
    connRun max parse idle (newConn idle now) (dataEvents cs ++ [.close]) =
      connRun max parse idle (newConn idle now) (dataEvents ds ++ [.close]) := by
  have hn := feed_nil (max := max) parse false (now + idle)
  have key : ∀ rest, rest = [] ∨ rest = [.close] →
      connRun max parse idle (newConn idle now) (dataEvents cs ++ rest) =
      connRun max parse idle (newConn idle now) (dataEvents ds ++ rest) := by
    intro rest hr
    obtain ⟨s1, a1, a2⟩ := run_onTime parse idle cs rest _ _ ⟨rfl, rfl⟩ hc hn
    obtain ⟨s2, b1, b2⟩ := run_onTime parse idle ds rest _ _ ⟨rfl, rfl⟩ hd hn
    rw [a2, b2, h]
    congr 1
    rcases hr with rfl | rfl
    · rfl
    · show (connEnd s1).1 ++ [] = (connEnd s2).1 ++ []
      rw [h] at a1
      rw [end_same ⟨a1.1.trans b1.1.symm, a1.2.trans b1.2.symm⟩]
  refine ⟨?_, key _ (.inr rfl)⟩
  have := key [] (.inl rfl)
  simpa using this

theorem drain_frames {max : Nat} (parse : List UInt8 → Option SyslogMsg) (xs : List (List UInt8 × SyslogMsg)) (st : Bool)
    (rest : List UInt8) (h : ∀ x ∈ xs, x.1 ≠ [] ∧ x.1.length ≤ max ∧ parse x.1 = some x.2) :
    drainFrames max parse st (xs.flatMap (fun x => syslogFrame x.1) ++ rest) =
      (xs.map (fun x => .msg x.2) ++ (drainFrames max parse (st || !xs.isEmpty) rest).1,
        (drainFrames max parse (st || !xs.isEmpty) rest).2) := by
  induction xs generalizing st with
  | nil => simp
  | cons x xs ih =>
    obtain ⟨h1, h2, h3⟩ := h x (List.mem_cons_self ..)
    have hb : (x :: xs).flatMap (fun x => syslogFrame x.1) ++ rest =
        syslogFrame x.1 ++ (xs.flatMap (fun x => syslogFrame x.1) ++ rest) := by simp
    rw [hb, drain_frame parse _ (scan_frame _ h1 h2), h3]
    · simp only
      rw [ih true (fun y hy => h y (List.mem_cons_of_mem _ hy))]
      simp
    · rintro ⟨_, h0⟩
      have hd := octets_digits (numeral_all (numeral_dec x.1.length))
      unfold syslogFrame at h0
      cases ho : octets (dec x.1.length) with
      | nil =>
        rw [ho] at hd
        exact numeral_ne (numeral_dec _) hd.1.symm
      | cons b t =>
        rw [ho] at h0 hd
        simp only [List.cons_append, List.head?_cons, Option.some.injEq] at h0
        have := hd.2 b (List.mem_cons_self ..)
        rw [h0] at this
        exact absurd this (by decide)

/-- Whatever the number of messages and however the network cuts the stream, every message
arrives once, in order, as soon as its last octet is there; and closing the connection
between two messages is no error. -/
theorem C110_frames (max : Nat) (parse : List UInt8 → Option SyslogMsg) (idle now : Int)
    (cs : List (Int × List UInt8)) (ht : OnTime max parse idle (newConn idle now) cs)
    (xs : List (List UInt8 × SyslogMsg)) (h : ∀ x ∈ xs, x.1 ≠ [] ∧ x.1.length ≤ max ∧ parse x.1 = some x.2)
    (hdata : allData cs = xs.flatMap (fun x => syslogFrame x.1)) :
    connRun max parse idle (newConn idle now) (dataEvents cs) = xs.map (fun x => .msg x.2) ∧
    (xs ≠ [] → connRun max parse idle (newConn idle now) (dataEvents cs ++ [.close]) = xs.map (fun x => .msg x.2)) := by
  have hn := feed_nil (max := max) parse false (now + idle)
  have hfeed : connFeed max parse (allData cs) (newConn idle now) =
      (xs.map (fun x => .msg x.2), { buf := some [], started := !xs.isEmpty, deadline := now + idle }) := by
    unfold connFeed newConn
    simp only
    rw [hdata, List.nil_append, ← List.append_nil (xs.flatMap _), drain_frames parse xs _ _ h,
      drain_more parse (by simp) rfl]
    cases xs <;> simp
  constructor
  · obtain ⟨s1, a1, a2⟩ := run_onTime parse idle cs [] _ _ ⟨rfl, rfl⟩ ht hn
    rw [List.append_nil] at a2
    rw [a2, hfeed]
    simp [connRun]
  · intro hne
    obtain ⟨s1, a1, a2⟩ := run_onTime parse idle cs [.close] _ _ ⟨rfl, rfl⟩ ht hn
    rw [a2]
    have : connRun max parse idle s1 [.close] = [] := by
      show (connEnd s1).1 ++ [] = []
      rw [end_same a1, hfeed]
      unfold connEnd
      cases xs with
      | nil => exact absurd rfl hne
      | cons x xs => rfl
    rw [this, hfeed, List.append_nil]

/-- A connection that ends in the middle of a message: all messages before it arrive, and the
beginning is counted as one error, never taken for a message. -/
theorem C110_cut (max : Nat) (parse : List UInt8 → Option SyslogMsg) (idle now : Int)
    (cs : List (Int × List UInt8)) (ht : OnTime max parse idle (newConn idle now) cs)
    (xs : List (List UInt8 × SyslogMsg)) (h : ∀ x ∈ xs, x.1 ≠ [] ∧ x.1.length ≤ max ∧ parse x.1 = some x.2)
    (m part missing : List UInt8) (hm0 : m ≠ []) (hm : m.length ≤ max) (hp0 : part ≠ []) (hmiss : missing ≠ [])
    (hpart : part ++ missing = syslogFrame m)
    (hdata : allData cs = xs.flatMap (fun x => syslogFrame x.1) ++ part) :
    connRun max parse idle (newConn idle now) (dataEvents cs ++ [.close]) =
      xs.map (fun x => .msg x.2) ++ [.bad] := by
  have hn := feed_nil (max := max) parse false (now + idle)
  have hfull : scanFrame max (part ++ missing) = .frame m [] := by
    rw [hpart, ← List.append_nil (syslogFrame m)]
    exact scan_frame _ hm0 hm
  have hmore : scanFrame max part = .more := by
    cases hs : scanFrame max part with
    | more => rfl
    | bad =>
      rw [scan_bad missing hs] at hfull
      cases hfull
    | frame m' r =>
      obtain ⟨hb, a, b⟩ := scan_inv hs
      rw [hb, List.append_assoc, scan_frame _ a b] at hfull
      injection hfull with _ hr
      exact absurd (List.append_eq_nil_iff.1 hr).2 hmiss
  have hhead : part.head? ≠ some 0 := by
    have hd := octets_digits (numeral_all (numeral_dec m.length))
    cases part with
    | nil => exact absurd rfl hp0
    | cons b t =>
      cases ho : octets (dec m.length) with
      | nil =>
        rw [ho] at hd
        exact absurd hd.1.symm (numeral_ne (numeral_dec _))
      | cons b' t' =>
        have hb : b = b' := by
          unfold syslogFrame at hpart
          rw [ho] at hpart
          exact (List.cons.inj hpart).1
        have := hd.2 b' (by rw [ho]; exact List.mem_cons_self ..)
        subst hb
        intro h0
        simp only [List.head?_cons, Option.some.injEq] at h0
        rw [h0] at this
        exact absurd this (by decide)
  have hfeed : connFeed max parse (allData cs) (newConn idle now) =
      (xs.map (fun x => .msg x.2), { buf := some part, started := !xs.isEmpty, deadline := now + idle }) := by
    unfold connFeed newConn
    simp only
    rw [hdata, List.nil_append, drain_frames parse xs _ _ h, drain_more parse (fun h => hhead h.2) hmore]
    cases xs <;> simp
  obtain ⟨s1, a1, a2⟩ := run_onTime parse idle cs [.close] _ _ ⟨rfl, rfl⟩ ht hn
  rw [a2, hfeed]
  congr 1
  show (connEnd s1).1 ++ [] = _
  rw [end_same a1, hfeed]
  unfold connEnd
  cases part with
  | nil => exact absurd rfl hp0
  | cons b t => simp

example : syslogFrame [60, 49] = [50, 32, 60, 49] ∧ [50, 32, 60] ++ [49] = syslogFrame [60, 49] := by decide +kernel

/-- No deadline is missed if all data arrives within the idle timeout of the start. -/
theorem C110_within (max : Nat) (parse : List UInt8 → Option SyslogMsg) (idle now : Int) (cs : List (Int × List UInt8))
    (h : ∀ x ∈ cs, now ≤ x.1 ∧ x.1 ≤ now + idle) : OnTime max parse idle (newConn idle now) cs := by
  have key : ∀ (cs : List (Int × List UInt8)) (s : SyslogConn), (∀ x ∈ cs, now ≤ x.1 ∧ x.1 ≤ now + idle) →
      now + idle ≤ s.deadline → OnTime max parse idle s cs := by
    intro cs
    induction cs with
    | nil => intro s _ _; trivial
    | cons x cs ih =>
      obtain ⟨t, c⟩ := x
      intro s h hd
      have ht := h _ (List.mem_cons_self ..)
      simp only at ht
      refine ⟨by omega, ih _ (fun y hy => h y (List.mem_cons_of_mem _ hy)) ?_⟩
      have hf : (connFeed max parse c s).2.deadline = s.deadline := by
        unfold connFeed
        cases s.buf <;> rfl
      unfold connStep
      simp only
      rw [if_neg (by omega)]
      simp only
      split
      · rw [hf]; exact hd
      · show now + idle ≤ t + idle
        omega
  exact key cs _ h (by show now + idle ≤ now + idle; omega)

/-- Nor if every piece of data is a number of whole messages and the next piece arrives
within the idle timeout: a sender that sends one message each time may go on for ever. -/
theorem C110_steady (max : Nat) (parse : List UInt8 → Option SyslogMsg) (idle now : Int)
    (cs : List (Int × List (List UInt8 × SyslogMsg)))
    (hx : ∀ y ∈ cs, y.2 ≠ [] ∧ ∀ x ∈ y.2, x.1 ≠ [] ∧ x.1.length ≤ max ∧ parse x.1 = some x.2)
    (ht : List.IsChain (fun a b : Int => b ≤ a + idle) (now :: cs.map (·.1))) :
    OnTime max parse idle (newConn idle now) (cs.map fun y => (y.1, y.2.flatMap fun x => syslogFrame x.1)) := by
  have key : ∀ (cs : List (Int × List (List UInt8 × SyslogMsg))) (last : Int) (st : Bool),
      (∀ y ∈ cs, y.2 ≠ [] ∧ ∀ x ∈ y.2, x.1 ≠ [] ∧ x.1.length ≤ max ∧ parse x.1 = some x.2) →
      List.IsChain (fun a b : Int => b ≤ a + idle) (last :: cs.map (·.1)) →
      OnTime max parse idle { started := st, deadline := last + idle }
        (cs.map fun y => (y.1, y.2.flatMap fun x => syslogFrame x.1)) := by
    intro cs
    induction cs with
    | nil => intro _ _ _ _; trivial
    | cons y cs ih =>
      intro last st hx ht
      rw [List.map_cons, List.isChain_cons_cons] at ht
      obtain ⟨hne, hy⟩ := hx y (List.mem_cons_self ..)
      refine ⟨ht.1, ?_⟩
      have hf : connFeed max parse (y.2.flatMap fun x => syslogFrame x.1) { started := st, deadline := last + idle } =
          (y.2.map (fun x => .msg x.2), { started := true, deadline := last + idle }) := by
        unfold connFeed
        simp only
        rw [List.nil_append, ← List.append_nil (y.2.flatMap _), drain_frames parse y.2 _ _ hy,
          drain_more parse (by simp) rfl]
        cases hz : y.2 with
        | nil => exact absurd hz hne
        | cons a b => simp
      have hs : (connStep max parse idle { started := st, deadline := last + idle }
          (.data y.1 (y.2.flatMap fun x => syslogFrame x.1))).2 = { started := true, deadline := y.1 + idle } := by
        unfold connStep
        simp only
        have := ht.1
        rw [if_neg (by omega), hf]
        cases hz : y.2 with
        | nil => exact absurd hz hne
        | cons a b => rfl
      rw [hs]
      exact ih y.1 true (fun z hz => hx z (List.mem_cons_of_mem _ hz)) ht.2
  exact key cs now false hx ht

example (parse : List UInt8 → Option SyslogMsg) (a b : List UInt8) :
    OnTime 8197 parse 30 (newConn 30 0) [(1, a), (20, b)] :=
  C110_within _ _ _ _ _ (by simp)

/-- For every stream at all: what arrives are the messages of the frames at its beginning,
in order, and then at most one error; after an error, and only then or at an octet 0, the
connection is closed, and what is left is the beginning of a frame. -/
theorem C110_stream (max : Nat) (parse : List UInt8 → Option SyslogMsg) (st : Bool) (bs : List UInt8) :
    ∃ (xs : List (List UInt8 × SyslogMsg)) (rest : List UInt8),
      bs = xs.flatMap (fun x => syslogFrame x.1) ++ rest ∧
      (∀ x ∈ xs, x.1 ≠ [] ∧ x.1.length ≤ max ∧ parse x.1 = some x.2) ∧
      (drainFrames max parse st bs = (xs.map (fun x => .msg x.2), some rest) ∨
       drainFrames max parse st bs = (xs.map (fun x => .msg x.2) ++ [.bad], none) ∨
       (drainFrames max parse st bs = (xs.map (fun x => .msg x.2), none) ∧ rest.head? = some 0)) := by
  induction hl : bs.length using Nat.strongRecOn generalizing bs st with
  | _ n ih =>
    by_cases h0 : st = true ∧ bs.head? = some 0
    · exact ⟨[], bs, rfl, by simp, .inr (.inr ⟨drain_nul parse h0, h0.2⟩)⟩
    · cases hs : scanFrame max bs with
      | more => exact ⟨[], bs, rfl, by simp, .inl (drain_more parse h0 hs)⟩
      | bad => exact ⟨[], bs, rfl, by simp, .inr (.inl (drain_bad parse h0 hs))⟩
      | frame m r =>
        obtain ⟨hb, hm0, hmax⟩ := scan_inv hs
        cases hp : parse m with
        | none =>
          refine ⟨[], bs, rfl, by simp, .inr (.inl ?_)⟩
          rw [drain_frame parse h0 hs, hp]
          rfl
        | some msg =>
          obtain ⟨xs, rest, h1, h2, h3⟩ := ih r.length (by rw [← hl]; exact scanFrame_shorter hs) true r rfl
          refine ⟨(m, msg) :: xs, rest, ?_, ?_, ?_⟩
          · rw [hb, h1]; simp
          · intro x hx
            rcases List.mem_cons.1 hx with rfl | hx
            · exact ⟨hm0, hmax, hp⟩
            · exact h2 x hx
          · rw [drain_frame parse h0 hs, hp]
            rcases h3 with h3 | h3 | ⟨h3, h4⟩
            · left; rw [h3]; rfl
            · right; left; rw [h3]; rfl
            · right; right; refine ⟨?_, h4⟩; rw [h3]; rfl

theorem run_closed {max : Nat} {parse : List UInt8 → Option SyslogMsg} {idle now t : Int} {bs : List UInt8}
    (hd : drainFrames max parse false bs = ([.bad], none)) (ht : t ≤ now + idle) :
    connRun max parse idle (newConn idle now) [.data t bs, .close] = [.bad] := by
  have hlt : ¬ (newConn idle now).deadline < t := by
    show ¬ now + idle < t
    omega
  have hf : connFeed max parse bs (newConn idle now) =
      ([.bad], { buf := none, started := true, deadline := now + idle }) := by
    unfold connFeed newConn
    simp only
    rw [List.nil_append, hd]
    rfl
  have hs : connStep max parse idle (newConn idle now) (.data t bs) =
      ([.bad], { buf := none, started := true, deadline := t + idle }) := by
    unfold connStep
    simp only
    rw [if_neg hlt, hf]
    rfl
  rw [connRun, hs]
  rfl

/-- Messages are not independent of each other: after one that is not accepted, all later
messages of the connection are lost, and only one error is counted. -/
theorem C110_after_error_false (max : Nat) (parse : List UInt8 → Option SyslogMsg) (idle now t : Int) (m rest : List UInt8)
    (h0 : m ≠ []) (hm : m.length ≤ max) (hp : parse m = none) (ht : t ≤ now + idle) :
    connRun max parse idle (newConn idle now) [.data t (syslogFrame m ++ rest), .close] = [.bad] := by
  refine run_closed ?_ ht
  rw [drain_frame parse (by simp) (scan_frame _ h0 hm), hp]

/-- A message longer than the buffer of the parser is not accepted, and closes the
connection. -/
theorem C110_long_false (max : Nat) (parse : List UInt8 → Option SyslogMsg) (idle now t : Int) (m rest : List UInt8)
    (hm : max < m.length) (ht : t ≤ now + idle) :
    connRun max parse idle (newConn idle now) [.data t (syslogFrame m ++ rest), .close] = [.bad] := by
  have h0 : m ≠ [] := by rintro rfl; simp at hm
  have hs := scan_frame (max := m.length) rest h0 (Nat.le_refl _)
  have hs2 : scanFrame max (syslogFrame m ++ rest) = .bad := by
    unfold scanFrame at hs ⊢
    simp only at hs ⊢
    split at hs
    · cases hs
    · rename_i hz
      rw [if_neg hz]
      split at hs
      · cases hs
      · rename_i b r hr
        split at hs
        · cases hs
        · rename_i hc
          rw [if_neg hc]
          split at hs
          · cases hs
          · rename_i k hk
            split at hs
            · split at hs <;> cases hs
            · split at hs
              · cases hs
              · rename_i h1 h2
                injection hs with e1 e2
                have := congrArg List.length e1
                rw [List.length_take] at this
                rw [if_pos (by omega), if_neg (by omega)]
  exact run_closed (drain_bad parse (by simp) hs2) ht

/-- A connection on which nothing was sent, such as that of a health check, counts as an
invalid message. -/
theorem C110_empty_false (max : Nat) (parse : List UInt8 → Option SyslogMsg) (idle now : Int) :
    connRun max parse idle (newConn idle now) [.close] = [.bad] := rfl

/-- The deadline is not moved by data: a sender whose message takes longer than the idle
timeout loses it, although octets keep arriving. -/
theorem C110_slow_false : ∃ (cs : List (Int × List UInt8)) (m : List UInt8),
    allData cs = syslogFrame m ∧ (∀ i a b, cs[i]? = some a → cs[i + 1]? = some b → b.1 - a.1 ≤ 1) ∧
    (∀ a, cs.head? = some a → a.1 ≤ 1) ∧
    ∀ parse, connRun 8197 parse 2 (newConn 2 0) (dataEvents cs) = [.bad] := by
  refine ⟨[(1, [51]), (2, [32, 65]), (3, [65, 65])], [65, 65, 65], by decide +kernel, ?_, ?_, ?_⟩
  · intro i a b h1 h2
    match i with
    | 0 => cases h1; cases h2; decide
    | 1 => cases h1; cases h2; decide
    | 2 => cases h2
    | n + 3 => cases h2
  · intro a h; cases h; decide
  · intro parse
    have d1 : drainFrames 8197 parse false [51] = ([], some [51]) := drain_more parse (by simp) (by decide +kernel)
    have d2 : drainFrames 8197 parse false [51, 32, 65] = ([], some [51, 32, 65]) :=
      drain_more parse (by simp) (by decide +kernel)
    have step : ∀ (buf c : List UInt8) (t dl : Int), drainFrames 8197 parse false (buf ++ c) = ([], some (buf ++ c)) → t ≤ dl →
        connStep 8197 parse 2 { buf := some buf, deadline := dl } (.data t c) =
          ([], { buf := some (buf ++ c), deadline := dl }) := by
      intro buf c t dl hd ht
      unfold connStep connFeed
      simp only
      rw [if_neg (by omega), hd]
      rfl
    show connRun 8197 parse 2 { buf := some [], deadline := 2 } [.data 1 [51], .data 2 [32, 65], .data 3 [65, 65]] = _
    rw [connRun, step [] [51] 1 2 d1 (by decide)]
    simp only [List.nil_append]
    rw [connRun, step [51] [32, 65] 2 2 d2 (by decide)]
    rfl

/-! ## C111 -/

/-- The parser accepts exactly the messages of RFC 5424, encoded in UTF-8, and reads their
parts as the standard says. -/
theorem C111_parse (bs : List UInt8) (m : SyslogMsg) :
    parseOctets bs = some m ↔ ∃ s, bs = octets s ∧ Rfc5424 s m := by
  unfold parseOctets
  constructor
  · intro h
    cases hd : bs.toByteArray.utf8Decode? with
    | none => rw [hd] at h; cases h
    | some cs =>
      rw [hd] at h
      simp only at h
      refine ⟨cs.toList, ?_, (rfc5424_iff _ _).1 h⟩
      have hs : (bs.toByteArray.utf8Decode?).isSome := by rw [hd]; rfl
      have he := ByteArray.utf8Encode_get_utf8Decode? (b := bs.toByteArray) (h := hs)
      have hg : (bs.toByteArray.utf8Decode?).get hs = cs := by
        simp only [hd, Option.get_some]
      rw [hg] at he
      unfold List.utf8Encode at he
      have := congrArg (fun b => b.data.toList) he
      simpa [octets] using this.symm
  · rintro ⟨s, rfl, h⟩
    have : (octets s).toByteArray.utf8Decode? = some s.toArray := List.utf8Decode?_utf8Encode
    rw [this]
    simp only [List.toList_toArray]
    exact (rfc5424_iff _ _).2 h

theorem line_rfc5424 {max : Nat} {l : AppLog} {t : Int} {kind inst : Str} (h : l.Valid max t kind inst) :
    Rfc5424 l.line
      { procId := some l.pid, appname := some l.app, timestamp := some t, message := some l.text,
        priority := some (if l.stderr then 11 else 14) } := by
  obtain ⟨h1, _, _, h2, h3, h4, _, _, _, h5, _⟩ := h
  have hdash : HeaderField 32 "-".toList none := by
    refine ⟨by decide, by decide, ?_, .inl ⟨rfl, rfl⟩⟩
    intro c hc
    have : c = '-' := by simpa using hc
    subst this
    exact (visible_iff _).1 (by decide)
  refine ⟨if l.stderr then 11 else 14, 1, l.time, l.host, l.app, l.pid, "-".toList, "-".toList, ' ' :: l.text,
    some l.host, none, ?_, ?_, by omega, by omega, .inr ⟨t, h1, rfl⟩, h2, h3, h4, hdash, .inl ⟨rfl, rfl⟩,
    .inr ⟨l.text, h5, rfl, rfl⟩, rfl⟩
  · unfold AppLog.line
    have e1 : "<11>1 ".toList = '<' :: dec 11 ++ '>' :: dec 1 ++ [' '] := by decide +kernel
    have e2 : "<14>1 ".toList = '<' :: dec 14 ++ '>' :: dec 1 ++ [' '] := by decide +kernel
    have e3 : " - - ".toList = ' ' :: "-".toList ++ ' ' :: "-".toList ++ [' '] := by decide +kernel
    rw [e1, e2, e3]
    generalize "-".toList = x
    cases l.stderr
    · simp
    · simp
  · split <;> omega

/-- Log lines sent by a conforming sender arrive: each as an envelope with the source id,
instance, time, kind of process, output stream and text of the line, in order, counted once,
without any error, however the network cuts the stream. -/
theorem C111_logs (pf : Str → Option Int) (max : Nat) (idle now : Int) (cs : List (Int × List UInt8))
    (ht : OnTime max parseOctets idle (newConn idle now) cs)
    (ls : List (AppLog × Int × Str × Str)) (hne : ls ≠ [])
    (hv : ∀ x ∈ ls, x.1.Valid max x.2.1 x.2.2.1 x.2.2.2)
    (hdata : allData cs = ls.flatMap (fun x => syslogFrame (octets x.1.line))) :
    ∃ s, syslogRun pf {} ((connRun max parseOctets idle (newConn idle now) (dataEvents cs ++ [.close])).map (·, true)) = some s ∧
      s.ingress = ls.length ∧ s.invalid = 0 ∧
      List.Forall₂ (fun x e => x.1.CarriedBy x.2.1 x.2.2.1 x.2.2.2 e) ls s.sent := by
  let msg : AppLog × Int × Str × Str → SyslogMsg := fun x =>
    { procId := some x.1.pid, appname := some x.1.app, timestamp := some x.2.1, message := some x.1.text,
      priority := some (if x.1.stderr then 11 else 14) }
  have hp : ∀ x ∈ ls, parseOctets (octets x.1.line) = some (msg x) := fun x hx =>
    (C111_parse _ _).2 ⟨_, rfl, line_rfc5424 (hv x hx)⟩
  have hf := (C110_frames max parseOctets idle now cs ht (ls.map fun x => (octets x.1.line, msg x)) (by
    intro y hy
    obtain ⟨x, hx, rfl⟩ := List.mem_map.1 hy
    refine ⟨?_, (hv x hx).2.2.2.2.2.2.2.2.2.2, hp x hx⟩
    intro h0
    have := hp x hx
    simp only at h0
    rw [h0] at this
    obtain ⟨s, hs, hr⟩ := (C111_parse _ _).1 this
    obtain ⟨pri, _, _, _, _, _, _, _, _, _, _, rfl, _⟩ := hr
    have h2 := congrArg List.length hs
    rw [List.length_nil] at h2
    have : 0 < (octets ('<' :: dec pri)).length := by
      rw [octets_cons, List.length_append]
      have : (String.utf8EncodeChar '<').length = 1 := by decide
      omega
    simp only [octets_append, List.length_append, List.cons_append, octets_cons] at h2 this
    omega) (by rw [hdata, List.flatMap_map])).2 (by simpa using hne)
  rw [hf]
  have conv : ∀ x ∈ ls, ∃ e, convertToEnvelope pf (msg x) = some (some e) ∧ x.1.CarriedBy x.2.1 x.2.2.1 x.2.2.2 e := by
    intro x hx
    obtain ⟨v1, v2, v3, v4, v5, v6, v7, v8, v9, v10, _⟩ := hv x hx
    obtain ⟨line, hl, he⟩ := C74_log pf (msg x) x.1.pid x.1.app x.1.text x.2.1 (if x.1.stderr then 11 else 14)
      ⟨rfl, rfl, rfl⟩ v2 v3 (.inl rfl) rfl rfl
    refine ⟨_, he, rfl, rfl, ?_, ?_, line, hl, ?_⟩
    · show (sourceTypeInstId x.1.pid).2 = _
      unfold AppLog.pid
      rw [C90_instance x.1.path _ _ v7 v8 v9]
    · show [("source_type".toList, (sourceTypeInstId x.1.pid).1)] = _
      unfold AppLog.pid
      rw [C90_instance x.1.path _ _ v7 v8 v9]
    · show some (Message.log line (decide ((if x.1.stderr = true then 11 else 14) = 11))) = _
      cases x.1.stderr <;> rfl
  clear hp hf hdata hv hne ht
  have key : ∀ (ls : List (AppLog × Int × Str × Str)),
      (∀ x ∈ ls, ∃ e, convertToEnvelope pf (msg x) = some (some e) ∧ x.1.CarriedBy x.2.1 x.2.2.1 x.2.2.2 e) →
      ∀ s0 : SyslogState, ∃ s es, syslogRun pf s0 ((ls.map fun x => (SyslogIn.msg (msg x), true))) = some s ∧
        s.ingress = s0.ingress + ls.length ∧ s.invalid = s0.invalid ∧ s.sent = s0.sent ++ es ∧
        List.Forall₂ (fun x e => x.1.CarriedBy x.2.1 x.2.2.1 x.2.2.2 e) ls es := by
    intro ls
    induction ls with
    | nil => intro _ s0; exact ⟨s0, [], rfl, rfl, rfl, by simp, .nil⟩
    | cons x ls ih =>
      intro h s0
      obtain ⟨e, he, hc⟩ := h x (List.mem_cons_self ..)
      have hstep : parseListener pf true s0 (.msg (msg x)) =
          some { s0 with ingress := s0.ingress + 1, sent := s0.sent ++ [e] } := by
        unfold parseListener
        simp only [he]
        rfl
      obtain ⟨s, es, h1, h2, h3, h4, h5⟩ := ih (fun y hy => h y (List.mem_cons_of_mem _ hy))
        { s0 with ingress := s0.ingress + 1, sent := s0.sent ++ [e] }
      refine ⟨s, e :: es, ?_, ?_, h3, ?_, .cons hc h5⟩
      · rw [List.map_cons, syslogRun, hstep]
        exact h1
      · rw [h2, List.length_cons]
        simp only
        omega
      · rw [h4]; simp
  obtain ⟨s, es, h1, h2, h3, h4, h5⟩ := key ls conv {}
  refine ⟨s, ?_, ?_, h3, ?_⟩
  · rw [← h1]
    congr 1
    simp
  · rw [h2]; simp
  · rw [h4]; simpa using h5

/-- The hypotheses can be met: a line of the third instance of an application. -/
def sampleLog : AppLog :=
  { time := "2019-05-15T15:00:00.25Z".toList, host := "org.space.app".toList,
    app := "c3a1f0e2-0000-4000-8000-000000000001".toList, path := ["APP".toList, "PROC".toList, "WEB".toList, "3".toList],
    text := "héllo\n".toList, stderr := false }

example : sampleLog.Valid 8197 1557932400250000000 "APP".toList "3".toList := by
  have vis : ∀ s : Str, s.all visibleAscii = true → ∀ c ∈ s, Visible c := by
    intro s h c hc
    rw [List.all_eq_true] at h
    exact (visible_iff c).1 (h c hc)
  refine ⟨(rfc3339_iff (by omega) _ _).1 (by decide +kernel), by decide, by decide,
    ⟨by decide, by decide, vis _ (by decide), .inr ⟨by decide, rfl⟩⟩,
    ⟨by decide, by decide, vis _ (by decide), .inr ⟨by decide, rfl⟩⟩,
    ⟨by decide, by decide, vis _ (by decide), .inr ⟨by decide, rfl⟩⟩, by decide, by decide, by decide, by decide,
    by decide +kernel⟩

/-- A message that is correct by RFC 5424 but names no process, or one without text, stops
the server: a frame of about fifty octets is enough. -/
theorem C111_crash_false (pf : Str → Option Int) :
    (∃ m, Rfc5424 "<14>1 2019-05-15T15:00:00Z host app - - - hi".toList m ∧ syslogRun pf {} [(.msg m, true)] = none) ∧
    ∃ m, Rfc5424 "<14>1 2019-05-15T15:00:00Z host app [APP/0] - -".toList m ∧ syslogRun pf {} [(.msg m, true)] = none := by
  constructor
  · refine ⟨{ appname := some "app".toList, timestamp := some 1557932400000000000, message := some "hi".toList,
              priority := some 14 }, (rfc5424_iff _ _).1 (by decide +kernel), rfl⟩
  · refine ⟨{ procId := some "[APP/0]".toList, appname := some "app".toList, timestamp := some 1557932400000000000,
              priority := some 14 }, (rfc5424_iff _ _).1 (by decide +kernel), rfl⟩

/-- Source ids of more than 48 characters do not arrive this way: no message with one is
accepted; nor is one with a process id of more than 128. -/
theorem C111_limits (bs : List UInt8) (m : SyslogMsg) (h : parseOctets bs = some m) :
    (∀ app, m.appname = some app → 0 < app.length ∧ app.length ≤ 48) ∧
    ∀ pid, m.procId = some pid → 0 < pid.length ∧ pid.length ≤ 128 := by
  obtain ⟨s, _, _, _, _, _, _, _, _, _, _, _, _, _, _, _, _, _, _, ha, hp, _⟩ := (C111_parse _ _).1 h
  constructor
  · rintro app he
    obtain ⟨h1, h2, _, ⟨_, h4⟩ | ⟨_, h4⟩⟩ := ha
    · rw [h4] at he; cases he
    · rw [h4] at he
      injection he with he
      rw [← he]
      exact ⟨List.length_pos_iff.2 h1, h2⟩
  · rintro app he
    obtain ⟨h1, h2, _, ⟨_, h4⟩ | ⟨_, h4⟩⟩ := hp
    · rw [h4] at he; cases he
    · rw [h4] at he
      injection he with he
      rw [← he]
      exact ⟨List.length_pos_iff.2 h1, h2⟩

end LogCache
