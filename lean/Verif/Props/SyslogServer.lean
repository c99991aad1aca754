import Verif.Spec.SyslogServer
import Verif.Props.SyslogStream

/-!
# Several senders of syslog at once (C147)
-/

namespace LogCache
open Spec

/-- What handling a result adds to the counters and to what was sent. -/
def SyslogState.plus (a b : SyslogState) : SyslogState :=
  ⟨a.ingress + b.ingress, a.invalid + b.invalid, a.sent ++ b.sent⟩

theorem parseListener_plus (pf : Str → Option Int) (ok : Bool) (s : SyslogState) (r : SyslogIn) :
    parseListener pf ok s r = (parseListener pf ok {} r).map s.plus := by
  cases r with
  | bad => simp [parseListener, SyslogState.plus]
  | msg m =>
    simp only [parseListener]
    rcases convertToEnvelope pf m with _ | _ | env
    · rfl
    · simp [SyslogState.plus]
    · cases ok <;> simp [SyslogState.plus]

/-- Is the event one of this connection? -/
def ofConn (id : Nat) : SrvEvent → Bool
  | .accept i _ => i == id
  | .acceptFails => true
  | .net i _ => i == id
  | .handle i _ => i == id

theorem onlyConn_eq (id : Nat) (evs : List SrvEvent) : onlyConn id evs = evs.filter (ofConn id) := by
  unfold onlyConn
  apply List.filter_congr
  intro e _
  cases e <;> rfl

variable {max : Nat} {parse : List UInt8 → Option SyslogMsg} {pf : Str → Option Int} {idle : Int}

/-- The server and one with only the connection `id` agree on that connection. -/
def ConnAlike (id : Nat) (s a : SyslogSrv) : Prop := a.listening = s.listening ∧ a.conns id = s.conns id

/-- What a step adds, and on whose behalf. -/
inductive Adds (s s' : SyslogSrv) (a a' : Nat → SyslogSrv) : Prop
  | nothing : s'.shared = s.shared → (∀ i, (a' i).shared = (a i).shared) → Adds s s' a a'
  | some (id : Nat) (d : SyslogState) : (s.conns id).isSome → s'.shared = s.shared.plus d → (a' id).shared = (a id).shared.plus d →
      (∀ i, i ≠ id → (a' i).shared = (a i).shared) → Adds s s' a a'

theorem srvStep_each {s s' : SyslogSrv} {a : Nat → SyslogSrv} (hR : ∀ i, ConnAlike i s (a i)) {e : SrvEvent}
    (h : srvStep max parse pf idle s e = some s') :
    ∃ a' : Nat → SyslogSrv, (∀ i, if ofConn i e = true then srvStep max parse pf idle (a i) e = some (a' i) else a' i = a i) ∧
      (∀ i, ConnAlike i s' (a' i)) ∧ Adds s s' a a' := by
  cases e with
  | accept id now =>
    simp only [srvStep] at h
    refine ⟨fun i => if i = id then (if s.listening && (s.conns id).isNone then
      { a i with conns := fun j => if j = id then some { conn := newConn idle now } else (a i).conns j } else a i) else a i, ?_, ?_, ?_⟩
    · intro i
      simp only [ofConn, beq_iff_eq]
      split
      · rename_i hi
        subst hi
        simp only [srvStep, (hR id).1, (hR id).2, if_true]
        split <;> rfl
      · rename_i hi
        rw [if_neg (fun h => hi h.symm)]
    · intro i
      by_cases hi : i = id
      · subst hi
        simp only [if_true]
        split at h <;> cases h
        · rename_i hc
          rw [if_pos hc]
          exact ⟨(hR i).1, by simp⟩
        · rename_i hc
          rw [if_neg hc]
          exact hR i
      · simp only [if_neg hi]
        split at h <;> cases h
        · exact ⟨(hR i).1, by simp [hi, (hR i).2]⟩
        · exact hR i
    · refine .nothing ?_ ?_
      · split at h <;> cases h <;> rfl
      · intro i
        dsimp only
        split
        · split <;> rfl
        · rfl
  | acceptFails =>
    cases h
    refine ⟨fun i => { a i with listening := false }, fun i => ?_, fun i => ⟨rfl, (hR i).2⟩, .nothing rfl fun _ => rfl⟩
    rfl
  | net id e =>
    simp only [srvStep] at h
    refine ⟨fun i => if i = id then (match s.conns id with
      | some ⟨c, []⟩ => { a i with conns := fun j => if j = id then some ⟨(connStep max parse idle c e).2, (connStep max parse idle c e).1⟩ else (a i).conns j }
      | _ => a i) else a i, ?_, ?_, ?_⟩
    · intro i
      simp only [ofConn, beq_iff_eq]
      split
      · rename_i hi
        subst hi
        simp only [srvStep, (hR id).2, if_true]
        rcases s.conns id with _ | ⟨c, _ | ⟨r, rest⟩⟩ <;> rfl
      · rename_i hi
        rw [if_neg (fun h => hi h.symm)]
    · intro i
      have hRi := hR i
      unfold ConnAlike at hRi ⊢
      by_cases hi : i = id
      · subst hi
        simp only [if_true]
        rcases hc : s.conns i with _ | ⟨c, _ | ⟨r, rest⟩⟩ <;> rw [hc] at h <;> cases h
        · exact hRi
        · exact ⟨hRi.1, by simp⟩
        · exact hRi
      · simp only [if_neg hi]
        rcases hc : s.conns id with _ | ⟨c, _ | ⟨r, rest⟩⟩ <;> rw [hc] at h <;> cases h
        · exact hRi
        · exact ⟨hRi.1, by simp [hi, hRi.2]⟩
        · exact hRi
    · refine .nothing ?_ ?_
      · rcases hc : s.conns id with _ | ⟨c, _ | ⟨r, rest⟩⟩ <;> rw [hc] at h <;> cases h <;> rfl
      · intro i
        dsimp only
        split
        · rcases s.conns id with _ | ⟨c, _ | ⟨r, rest⟩⟩ <;> rfl
        · rfl
  | handle id ok =>
    simp only [srvStep] at h
    rcases hc : s.conns id with _ | ⟨c, _ | ⟨r, rest⟩⟩
    · rw [hc] at h
      cases h
      refine ⟨a, fun i => ?_, hR, .nothing rfl fun _ => rfl⟩
      split
      · rename_i hi
        simp only [ofConn, beq_iff_eq] at hi
        subst hi
        simp [srvStep, (hR id).2, hc]
      · rfl
    · rw [hc] at h
      cases h
      refine ⟨a, fun i => ?_, hR, .nothing rfl fun _ => rfl⟩
      split
      · rename_i hi
        simp only [ofConn, beq_iff_eq] at hi
        subst hi
        simp [srvStep, (hR id).2, hc]
      · rfl
    · rw [hc] at h
      simp only [parseListener_plus pf ok s.shared] at h
      rcases hp : parseListener pf ok {} r with _ | d
      · simp [hp] at h
      · simp only [hp, Option.map_some] at h
        cases h
        refine ⟨fun i => if i = id then { a i with shared := (a i).shared.plus d, conns := fun j => if j = id then some ⟨c, rest⟩ else (a i).conns j } else a i,
          ?_, ?_, .some id d (by rw [hc]; rfl) rfl (by simp) (fun i hi => by simp [hi])⟩
        · intro i
          simp only [ofConn, beq_iff_eq]
          split
          · rename_i hi
            subst hi
            simp [srvStep, (hR id).2, hc, parseListener_plus pf ok (a id).shared, hp]
          · rename_i hi
            rw [if_neg (fun h => hi h.symm)]
        · intro i
          have hRi := hR i
          unfold ConnAlike at hRi ⊢
          by_cases hi : i = id
          · subst hi
            exact ⟨by simp [hRi.1], by simp⟩
          · exact ⟨by simp [hi, hRi.1], by simp [hi, hRi.2]⟩

theorem srvStep_conns {s s' : SyslogSrv} {e : SrvEvent} (h : srvStep max parse pf idle s e = some s') {ids : List Nat}
    (hs : ∀ i, (s.conns i).isSome → i ∈ ids) (he : ∀ i now, e = .accept i now → i ∈ ids) :
    ∀ i, (s'.conns i).isSome → i ∈ ids := by
  intro i hi
  have key : ∀ (j : Nat) (x : Option SrvConn) (old : Nat → Option SrvConn), (∀ i, (old i).isSome → i ∈ ids) → j ∈ ids →
      ((if i = j then x else old i)).isSome → i ∈ ids := by
    intro j x old ho hj hx
    split at hx
    · rename_i h; rw [h]; exact hj
    · exact ho i hx
  cases e with
  | accept id now =>
    simp only [srvStep] at h
    split at h <;> cases h
    · exact key id _ s.conns hs (he id now rfl) hi
    · exact hs i hi
  | acceptFails => cases h; exact hs i hi
  | net id e =>
    simp only [srvStep] at h
    rcases hc : s.conns id with _ | ⟨c, _ | ⟨r, rest⟩⟩ <;> rw [hc] at h <;> cases h
    · exact hs i hi
    · exact key id _ s.conns hs (hs id (by rw [hc]; rfl)) hi
    · exact hs i hi
  | handle id ok =>
    simp only [srvStep] at h
    rcases hc : s.conns id with _ | ⟨c, _ | ⟨r, rest⟩⟩ <;> rw [hc] at h
    · cases h; exact hs i hi
    · cases h; exact hs i hi
    · simp only at h
      split at h <;> cases h
      exact key id _ s.conns hs (hs id (by rw [hc]; rfl)) hi

theorem sum_update {ids : List Nat} (hn : ids.Nodup) {id : Nat} (hid : id ∈ ids) {f g : Nat → Nat} {k : Nat}
    (h1 : g id = f id + k) (h2 : ∀ i, i ≠ id → g i = f i) : (ids.map g).sum = (ids.map f).sum + k := by
  induction ids with
  | nil => cases hid
  | cons x xs ih =>
    rw [List.nodup_cons] at hn
    simp only [List.map_cons, List.sum_cons]
    by_cases hx : x = id
    · subst hx
      have : xs.map g = xs.map f := List.map_congr_left fun i hi => h2 i fun h => hn.1 (h ▸ hi)
      rw [h1, this]
      omega
    · rw [h2 x hx, ih hn.2 (by rcases List.mem_cons.1 hid with h | h; exact absurd h.symm hx; exact h)]
      omega

theorem srvRun_each {evs : List SrvEvent} {ids : List Nat} (hn : ids.Nodup) (he : ∀ i now, SrvEvent.accept i now ∈ evs → i ∈ ids) :
    ∀ {s t : SyslogSrv} {a : Nat → SyslogSrv}, (∀ i, ConnAlike i s (a i)) → (∀ i, (s.conns i).isSome → i ∈ ids) →
      MadeUpOf s.shared.sent (fun i => (a i).shared.sent) →
      s.shared.ingress = (ids.map fun i => (a i).shared.ingress).sum →
      s.shared.invalid = (ids.map fun i => (a i).shared.invalid).sum →
      srvRun max parse pf idle s evs = some t →
      ∃ b : Nat → SyslogSrv, (∀ i, srvRun max parse pf idle (a i) (onlyConn i evs) = some (b i)) ∧
        MadeUpOf t.shared.sent (fun i => (b i).shared.sent) ∧
        t.shared.ingress = (ids.map fun i => (b i).shared.ingress).sum ∧
        t.shared.invalid = (ids.map fun i => (b i).shared.invalid).sum := by
  induction evs with
  | nil =>
    intro s t a hR hc hm h1 h2 h
    cases h
    exact ⟨a, fun i => rfl, hm, h1, h2⟩
  | cons e evs ih =>
    intro s t a hR hc hm h1 h2 h
    simp only [srvRun] at h
    rcases hs : srvStep max parse pf idle s e with _ | s'
    · rw [hs] at h; cases h
    · rw [hs] at h
      obtain ⟨a', ha, hR', hadd⟩ := srvStep_each hR hs
      have hc' := srvStep_conns hs hc (fun i now h => he i now (h ▸ List.mem_cons_self))
      have hinv : MadeUpOf s'.shared.sent (fun i => (a' i).shared.sent) ∧
          s'.shared.ingress = (ids.map fun i => (a' i).shared.ingress).sum ∧
          s'.shared.invalid = (ids.map fun i => (a' i).shared.invalid).sum := by
        cases hadd with
        | nothing e1 e2 => simp only [e1, e2]; exact ⟨hm, h1, h2⟩
        | some id d hid e1 e2 e3 =>
          refine ⟨?_, ?_, ?_⟩
          · obtain ⟨tg, t1, t2⟩ := hm
            refine ⟨tg ++ d.sent.map (id, ·), ?_, ?_⟩
            · rw [e1, SyslogState.plus, t1, List.map_append, List.map_map]
              simp
            · intro i
              rw [List.filter_append, List.map_append, t2 i]
              show (a i).shared.sent ++ _ = (a' i).shared.sent
              by_cases hi : i = id
              · subst hi
                rw [e2, SyslogState.plus, List.filter_eq_self.2 (by simp)]
                simp
              · rw [e3 i hi, List.filter_eq_nil_iff.2 (by simp; intro _ _ h; exact hi h.symm)]
                simp
          · rw [e1, SyslogState.plus, h1]
            exact (sum_update hn (hc id hid) (by rw [e2]; rfl) (fun i hi => by rw [e3 i hi])).symm
          · rw [e1, SyslogState.plus, h2]
            exact (sum_update hn (hc id hid) (by rw [e2]; rfl) (fun i hi => by rw [e3 i hi])).symm
      obtain ⟨b, hb, hrest⟩ := ih (fun i now h => he i now (List.mem_cons_of_mem _ h)) hR' hc' hinv.1 hinv.2.1 hinv.2.2 h
      refine ⟨b, fun i => ?_, hrest⟩
      rw [onlyConn_eq, List.filter_cons]
      have hai := ha i
      split at hai
      · rename_i ho
        rw [if_pos ho]
        simp only [srvRun, hai]
        rw [← onlyConn_eq]
        exact hb i
      · rename_i ho
        rw [if_neg ho, ← onlyConn_eq, ← hai]
        exact hb i

theorem accept_bound (evs : List SrvEvent) : ∃ N, ∀ i now, SrvEvent.accept i now ∈ evs → i < N := by
  induction evs with
  | nil => exact ⟨0, by simp⟩
  | cons e evs ih =>
    obtain ⟨N, hN⟩ := ih
    cases e with
    | accept j t =>
      refine ⟨Nat.max N (j + 1), fun i now h => ?_⟩
      rcases List.mem_cons.1 h with h | h
      · cases h; exact Nat.lt_of_lt_of_le (Nat.lt_succ_self _) (Nat.le_max_right _ _)
      · exact Nat.lt_of_lt_of_le (hN i now h) (Nat.le_max_left _ _)
    | acceptFails => exact ⟨N, fun i now h => hN i now (by simpa using h)⟩
    | net => exact ⟨N, fun i now h => hN i now (by simpa using h)⟩
    | handle => exact ⟨N, fun i now h => hN i now (by simpa using h)⟩

/-- As long as the server runs, the senders do not disturb each other, however their octets,
the handling of their messages and the accepting of connections mix: what the server has sent to
log-cache is made up of what a server with only that connection would have sent, for every
connection and in its order, and the counters are the sums of theirs. -/
theorem C147_apart_partial {evs : List SrvEvent} {s : SyslogSrv} (h : srvRun max parse pf idle {} evs = some s)
    {ids : List Nat} (hn : ids.Nodup) (hids : ∀ i now, SrvEvent.accept i now ∈ evs → i ∈ ids) :
    ∃ alone : Nat → SyslogSrv, (∀ i, srvRun max parse pf idle {} (onlyConn i evs) = some (alone i)) ∧
      MadeUpOf s.shared.sent (fun i => (alone i).shared.sent) ∧
      s.shared.ingress = (ids.map fun i => (alone i).shared.ingress).sum ∧
      s.shared.invalid = (ids.map fun i => (alone i).shared.invalid).sum :=
  srvRun_each hn hids (a := fun _ => {}) (fun _ => ⟨rfl, rfl⟩) (by simp) ⟨[], rfl, fun _ => rfl⟩ (by simp) (by simp) h

/-- The server ends with a panic exactly when a server with only one of the connections would. -/
theorem C147_crash_partial (evs : List SrvEvent) :
    srvRun max parse pf idle {} evs = none ↔ ∃ i, srvRun max parse pf idle {} (onlyConn i evs) = none := by
  constructor
  · suffices hg : ∀ (s : SyslogSrv) (a : Nat → SyslogSrv), (∀ i, ConnAlike i s (a i)) → srvRun max parse pf idle s evs = none →
        ∃ i, srvRun max parse pf idle (a i) (onlyConn i evs) = none from
      fun h => hg {} (fun _ => {}) (fun _ => ⟨rfl, rfl⟩) h
    induction evs with
    | nil => intro s a _ h; cases h
    | cons e evs ih =>
      intro s a hR h
      simp only [srvRun] at h
      rcases hs : srvStep max parse pf idle s e with _ | s'
      · clear h
        cases e with
        | accept id now => simp only [srvStep] at hs; split at hs <;> cases hs
        | acceptFails => cases hs
        | net id e =>
          simp only [srvStep] at hs
          rcases hc : s.conns id with _ | ⟨c, _ | ⟨r, rest⟩⟩ <;> rw [hc] at hs <;> cases hs
        | handle id ok =>
          refine ⟨id, ?_⟩
          simp only [srvStep] at hs
          rcases hc : s.conns id with _ | ⟨c, _ | ⟨r, rest⟩⟩ <;> rw [hc] at hs <;> try cases hs
          simp only [parseListener_plus pf ok s.shared] at hs
          rcases hp : parseListener pf ok {} r with _ | d
          · rw [onlyConn_eq, List.filter_cons, if_pos (by simp [ofConn])]
            simp [srvRun, srvStep, (hR id).2, hc, parseListener_plus pf ok (a id).shared, hp]
          · rw [hp] at hs; cases hs
      · rw [hs] at h
        obtain ⟨a', ha, hR', -⟩ := srvStep_each hR hs
        obtain ⟨i, hi⟩ := ih s' a' hR' h
        refine ⟨i, ?_⟩
        rw [onlyConn_eq, List.filter_cons]
        have hai := ha i
        split at hai
        · rename_i ho
          rw [if_pos ho]
          simp only [srvRun, hai]
          rw [← onlyConn_eq]
          exact hi
        · rename_i ho
          rw [if_neg ho, ← onlyConn_eq, ← hai]
          exact hi
  · rintro ⟨i, hi⟩
    rcases h : srvRun max parse pf idle {} evs with _ | s
    · rfl
    · obtain ⟨N, hN⟩ := accept_bound evs
      obtain ⟨b, hb, -⟩ := srvRun_each (ids := List.range N) List.nodup_range (fun i now h => List.mem_range.2 (hN i now h)) (a := fun _ => {}) (fun _ => ⟨rfl, rfl⟩) (by simp) ⟨[], rfl, fun _ => rfl⟩ (by simp) (by simp) h
      rw [hb i] at hi
      cases hi

theorem connStep_frame {x : List UInt8} {m : SyslogMsg} (h0 : x ≠ []) (hx : x.length ≤ max) (hp : parse x = some m)
    {now t : Int} (ht : t ≤ now + idle) :
    connStep max parse idle (newConn idle now) (.data t (syslogFrame x)) = ([.msg m], ⟨some [], true, t + idle⟩) := by
  have h := drain_frames parse [(x, m)] false [] (max := max) (by simpa using ⟨h0, hx, hp⟩)
  have hm : drainFrames max parse true [] = ([], some []) := drain_more _ (by simp) (by simp [scanFrame])
  simp only [List.flatMap_cons, List.flatMap_nil, List.append_nil, List.isEmpty_cons, Bool.not_false, Bool.or_true, hm,
    List.map_cons, List.map_nil] at h
  have hn : ¬ now + idle < t := by omega
  simp [connStep, connFeed, newConn, hn, h]

theorem handle_all {id : Nat} {c : SyslogConn} (ins : List (SyslogIn × Bool)) : ∀ (s : SyslogSrv),
    s.conns id = some ⟨c, ins.map Prod.fst⟩ →
    (syslogRun pf s.shared ins = none ∧ srvRun max parse pf idle s (ins.map fun x => .handle id x.2) = none) ∨
    ∃ s', srvRun max parse pf idle s (ins.map fun x => .handle id x.2) = some s' ∧ syslogRun pf s.shared ins = some s'.shared ∧
      s'.conns id = some ⟨c, []⟩ := by
  induction ins with
  | nil => exact fun s h => Or.inr ⟨s, rfl, rfl, h⟩
  | cons x ins ih =>
    intro s h
    simp only [List.map_cons] at h
    simp only [List.map_cons, srvRun, srvStep, h, syslogRun]
    cases hp : parseListener pf x.2 s.shared x.1 with
    | none => exact Or.inl ⟨rfl, rfl⟩
    | some sh =>
      exact ih { s with shared := sh, conns := fun i => if i = id then some ⟨c, ins.map Prod.fst⟩ else s.conns i } (by simp)

theorem srvRun_append (s : SyslogSrv) (xs ys : List SrvEvent) :
    srvRun max parse pf idle s (xs ++ ys) = (srvRun max parse pf idle s xs).bind fun s' => srvRun max parse pf idle s' ys := by
  induction xs generalizing s with
  | nil => rfl
  | cons x xs ih =>
    simp only [List.cons_append, srvRun]
    cases srvStep max parse pf idle s x with
    | none => rfl
    | some s' => exact ih s'

/-- And a connection on its own is served as C110 and C74 say: the results of its octets are
handled one after the other. -/
theorem C147_alone (id : Nat) (now : Int) (es : List ConnEvent) (ins : List (SyslogIn × Bool))
    (h : connRun max parse idle (newConn idle now) es = ins.map Prod.fst) :
    ∃ evs, netEvents evs = es ∧ sendResults evs = ins.map Prod.snd ∧ onlyConn id evs = evs ∧
      (srvRun max parse pf idle {} (.accept id now :: evs)).map (·.shared) = syslogRun pf {} ins := by
  suffices hg : ∀ (c : SyslogConn) (s : SyslogSrv), s.conns id = some ⟨c, []⟩ → connRun max parse idle c es = ins.map Prod.fst →
      ∃ evs, netEvents evs = es ∧ sendResults evs = ins.map Prod.snd ∧ onlyConn id evs = evs ∧
        (srvRun max parse pf idle s evs).map (·.shared) = syslogRun pf s.shared ins by
    obtain ⟨evs, h1, h2, h3, h4⟩ := hg (newConn idle now)
      { conns := fun i => if i = id then some { conn := newConn idle now } else none } (by simp) h
    exact ⟨evs, h1, h2, h3, by simpa [srvRun, srvStep] using h4⟩
  clear h
  induction es generalizing ins with
  | nil =>
    intro c s hc h
    cases ins with
    | nil => exact ⟨[], rfl, rfl, rfl, rfl⟩
    | cons => cases h
  | cons e es ih =>
    intro c s hc h
    simp only [connRun] at h
    obtain ⟨ins1, ins2, rfl, hi1, hi2⟩ := List.append_eq_map_iff.1 h
    have hnet : srvStep max parse pf idle s (.net id e) = some
        { s with conns := fun i => if i = id then some ⟨(connStep max parse idle c e).2, (connStep max parse idle c e).1⟩ else s.conns i } := by
      simp [srvStep, hc]
    have hrun : ∀ ys, srvRun max parse pf idle s (.net id e :: ys) = srvRun max parse pf idle
        { s with conns := fun i => if i = id then some ⟨(connStep max parse idle c e).2, (connStep max parse idle c e).1⟩ else s.conns i } ys := by
      intro ys
      simp only [srvRun, hnet]
    have hs : ∀ (zs : List (SyslogIn × Bool)) (sh : SyslogState), syslogRun pf sh (ins1 ++ zs) =
        (syslogRun pf sh ins1).bind fun sh' => syslogRun pf sh' zs := by
      intro zs
      clear hi1 h
      induction ins1 with
      | nil => intro sh; rfl
      | cons x xs ih =>
        intro sh
        simp only [List.cons_append, syslogRun]
        cases parseListener pf x.2 sh x.1 with
        | none => rfl
        | some sh' => exact ih sh'
    have parts : ∀ evs, netEvents (.net id e :: (ins1.map fun x => .handle id x.2) ++ evs) = e :: netEvents evs ∧
        sendResults (.net id e :: (ins1.map fun x => .handle id x.2) ++ evs) = ins1.map Prod.snd ++ sendResults evs ∧
        (onlyConn id evs = evs → onlyConn id (.net id e :: (ins1.map fun x => .handle id x.2) ++ evs) =
          .net id e :: (ins1.map fun x => .handle id x.2) ++ evs) := by
      intro evs
      refine ⟨?_, ?_, ?_⟩
      · simp [netEvents, List.filterMap_append, List.filterMap_map, Function.comp_def]
      · simp [sendResults, List.filterMap_append, List.filterMap_map, Function.comp_def]
      · intro h
        rw [onlyConn_eq] at h ⊢
        rw [List.filter_append, h]
        congr 1
        rw [List.filter_eq_self]
        intro x hx
        rcases List.mem_cons.1 hx with rfl | hx
        · simp [ofConn]
        · obtain ⟨y, -, rfl⟩ := List.mem_map.1 hx
          simp [ofConn]
    rcases handle_all (max := max) (parse := parse) (pf := pf) (idle := idle) (id := id) (c := (connStep max parse idle c e).2) ins1
        { s with conns := fun i => if i = id then some ⟨(connStep max parse idle c e).2, (connStep max parse idle c e).1⟩ else s.conns i }
        (by simp [hi1]) with ⟨hn1, hn2⟩ | ⟨s', hs1, hs2, hs3⟩
    · obtain ⟨evs, h1, h2, h3, -⟩ := ih ins2 (connStep max parse idle c e).2
        { conns := fun _ => some ⟨(connStep max parse idle c e).2, []⟩ } rfl hi2.symm
      refine ⟨.net id e :: (ins1.map fun x => .handle id x.2) ++ evs, by rw [(parts evs).1, h1], by rw [(parts evs).2.1, h2, List.map_append],
        (parts evs).2.2 h3, ?_⟩
      rw [hs, hn1, List.cons_append, hrun, srvRun_append, hn2]
      rfl
    · obtain ⟨evs, h1, h2, h3, h4⟩ := ih ins2 (connStep max parse idle c e).2 s' hs3 hi2.symm
      refine ⟨.net id e :: (ins1.map fun x => .handle id x.2) ++ evs, by rw [(parts evs).1, h1], by rw [(parts evs).2.1, h2, List.map_append],
        (parts evs).2.2 h3, ?_⟩
      rw [hs, hs2, List.cons_append, hrun, srvRun_append, hs1]
      exact h4

/-- Two connections whose messages are handled in turn. -/
example {parse : List UInt8 → Option SyslogMsg} (ha : parse [65] = some
      { appname := some "a".toList, procId := some "[APP/0]".toList, timestamp := some 1, message := some "hi".toList, priority := some 14 })
    (hb : parse [66] = some
      { appname := some "b".toList, procId := some "[APP/0]".toList, timestamp := some 1, message := some "hi".toList, priority := some 14 }) :
    (srvRun 8192 parse (fun _ => none) 10 {}
      [.accept 0 0, .accept 1 0, .net 0 (.data 1 (syslogFrame [65])), .net 1 (.data 1 (syslogFrame [66])), .handle 1 true,
        .handle 0 true]).map (fun s => s.shared.sent.map (·.sourceId)) = some ["b".toList, "a".toList] := by
  have h1 := connStep_frame (max := 8192) (idle := 10) (now := 0) (t := 1) (by simp) (by simp) ha (by omega)
  have h2 := connStep_frame (max := 8192) (idle := 10) (now := 0) (t := 1) (by simp) (by simp) hb (by omega)
  simp [srvRun, srvStep, h1, h2, parseListener, convertToEnvelope]

/-- But a sender can end the process for all: whatever the server is doing, one message that the
parser takes and the conversion does not survive is enough. -/
theorem C147_crash_false {evs : List SrvEvent} {s : SyslogSrv} (h : srvRun max parse pf idle {} evs = some s)
    (hl : s.listening = true) {id : Nat} (hid : s.conns id = none) (hi : 0 ≤ idle) {x : List UInt8} {m : SyslogMsg}
    (h0 : x ≠ []) (hx : x.length ≤ max) (hp : parse x = some m) (hc : convertToEnvelope pf m = none) (now : Int) (ok : Bool) :
    srvRun max parse pf idle {} (evs ++ [.accept id now, .net id (.data now (syslogFrame x)), .handle id ok]) = none := by
  suffices hg : ∀ s0, srvRun max parse pf idle s0 evs = some s →
      srvRun max parse pf idle s0 (evs ++ [.accept id now, .net id (.data now (syslogFrame x)), .handle id ok]) = none from hg _ h
  clear h
  induction evs with
  | nil =>
    intro s0 h
    cases h
    simp [srvRun, srvStep, hl, hid, connStep_frame h0 hx hp (by omega : now ≤ now + idle), parseListener, hc]
  | cons e evs ih =>
    intro s0 h
    simp only [srvRun, List.cons_append] at h ⊢
    split at h
    · cases h
    · exact ih _ h

/-- Such a message, as octets: it is correct by RFC 5424 and names no process. -/
example (pf : Str → Option Int) : ∃ m, parseOctets (octets "<14>1 2019-05-15T15:00:00Z host app - - - hi".toList) = some m ∧
    convertToEnvelope pf m = none := by
  obtain ⟨⟨m, hm, hc⟩, -⟩ := C111_crash_false pf
  refine ⟨m, (C111_parse _ _).2 ⟨_, rfl, hm⟩, ?_⟩
  simp only [syslogRun, parseListener] at hc
  rcases h : convertToEnvelope pf m with _ | _ | env
  · rfl
  · simp [h] at hc
  · simp [h] at hc

/-- After a single failed accept the server takes no connection any more, although the process
goes on: whatever the senders of later connections send, nothing of it is sent to log-cache or
counted. -/
theorem C147_deaf_false (pre post : List SrvEvent) {i : Nat} (hi : ∀ now, SrvEvent.accept i now ∉ pre) :
    srvRun max parse pf idle {} (onlyConn i (pre ++ .acceptFails :: post)) = some { listening := false } := by
  have deaf : ∀ evs : List SrvEvent, srvRun max parse pf idle { listening := false } (onlyConn i evs) = some { listening := false } := by
    intro evs
    induction evs with
    | nil => rfl
    | cons e evs ih =>
      rw [onlyConn_eq, List.filter_cons]
      split
      · rw [← onlyConn_eq]
        cases e <;> exact ih
      · rw [← onlyConn_eq]
        exact ih
  induction pre with
  | nil =>
    rw [List.nil_append, onlyConn_eq, List.filter_cons, if_pos (by rfl), ← onlyConn_eq]
    exact deaf post
  | cons e pre ih =>
    have ih := ih fun now h => hi now (List.mem_cons_of_mem _ h)
    rw [List.cons_append, onlyConn_eq, List.filter_cons]
    split
    · rename_i ho
      rw [← onlyConn_eq]
      cases e with
      | accept j now =>
        simp only [ofConn, beq_iff_eq] at ho
        subst ho
        exact absurd List.mem_cons_self (hi now)
      | acceptFails => exact deaf _
      | net => exact ih
      | handle => exact ih
    · rw [← onlyConn_eq]
      exact ih

end LogCache
