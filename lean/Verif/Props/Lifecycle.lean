import Mathlib.Data.List.Induction
import Verif.Spec.Lifecycle

/-! # The life of the syslog server (C162) and of a node's server (C163) -/
namespace LogCache
open Spec

/-! ## C162 -/

theorem lifeRun_last {idle t0 : Int} {a : List (Int × LifeEvent)} {x : Int × LifeEvent} {s : SyslogLife}
    (h : LifeRun idle t0 (a ++ [x]) s) :
    ∃ s0, LifeRun idle t0 a s0 ∧ s0.now ≤ x.1 ∧ LifeStep idle { s0 with now := x.1 } x.2 s := by
  generalize hl : a ++ [x] = l at h
  cases h with
  | nil => simp at hl
  | snoc h1 h2 h3 =>
    obtain ⟨rfl, hx⟩ := List.append_inj' hl rfl
    obtain rfl := List.head_eq_of_cons_eq hx
    exact ⟨_, h1, h2, h3⟩

/-- What every step keeps, and what then holds of every event. -/
theorem lifeRun_after {idle t0 : Int} {P : SyslogLife → Prop} {Q : LifeEvent → Prop}
    (hP : ∀ (s s' : SyslogLife) (t : Int) e, P s → LifeStep idle { s with now := t } e s' → P s' ∧ Q e)
    {a b : List (Int × LifeEvent)} {s : SyslogLife} (ha : ∀ s0, LifeRun idle t0 a s0 → P s0)
    (h : LifeRun idle t0 (a ++ b) s) : P s ∧ ∀ x ∈ b, Q x.2 := by
  induction b using List.reverseRecOn generalizing s with
  | nil => exact ⟨ha s (by simpa using h), fun x hx => nomatch hx⟩
  | append_singleton b x ih =>
    rw [← List.append_assoc] at h
    obtain ⟨s0, h1, -, h3⟩ := lifeRun_last h
    obtain ⟨i1, i2⟩ := ih h1
    obtain ⟨j1, j2⟩ := hP _ _ _ _ i1 h3
    refine ⟨j1, fun y hy => ?_⟩
    rcases List.mem_append.1 hy with hy | hy
    · exact i2 y hy
    · rw [List.mem_singleton.1 hy]; exact j2

/-- `Start` has come to its loop, and the listener is closed if the server does not hold it. -/
def Served (s : SyslogLife) : Prop :=
  s.start ≠ .before ∧ s.start ≠ .bound ∧ (s.held = false → s.listening = false)

theorem held_served {idle t0 : Int} {evs : List (Int × LifeEvent)} {s : SyslogLife} (h : LifeRun idle t0 evs s) :
    (s.start = .before ∨ s.start = .bound → s.held = false) ∧ (s.held = true → Served s) := by
  induction h with
  | nil => simp
  | @snoc evs s s' t e _ _ hs ih =>
    obtain ⟨h1, h2⟩ := ih
    unfold Served at h2 ⊢
    cases hs <;> cases hh : s.held <;> simp_all [SyslogLife.stopped, SyslogLife.setDeadline]

theorem served_kept {idle : Int} (s s' : SyslogLife) (t : Int) (e : LifeEvent) (h : Served s)
    (hs : LifeStep idle { s with now := t } e s') : Served s' ∧ True := by
  refine ⟨?_, trivial⟩
  unfold Served at h ⊢
  cases hs <;> cases hh : s.held <;> simp_all [SyslogLife.stopped, SyslogLife.setDeadline]

/-- The listener is closed for good. -/
def Shut (s : SyslogLife) : Prop :=
  s.start ≠ .before ∧ s.start ≠ .bound ∧ s.held = false ∧ s.listening = false

theorem shut_kept {idle : Int} (s s' : SyslogLife) (t : Int) (e : LifeEvent) (h : Shut s)
    (hs : LifeStep idle { s with now := t } e s') :
    Shut s' ∧ ((∀ c, e ≠ .accept c) ∧ e ≠ .addr true) := by
  unfold Shut at h ⊢
  obtain ⟨h1, h2, h3, h4⟩ := h
  cases hs <;> simp_all [SyslogLife.stopped, SyslogLife.setDeadline]

/-- Once the server has told its address and `Stop` has been called after that, it takes no
connection and tells no address, whatever happens and in whatever order. -/
theorem C162_stop {idle t0 : Int} {pre mid post : List (Int × LifeEvent)} {t1 t2 : Int} {s : SyslogLife}
    (h : LifeRun idle t0 (pre ++ (t1, .addr true) :: mid ++ (t2, .stop) :: post) s) :
    NoneAccepted post ∧ NoAddress post := by
  have e1 : pre ++ (t1, LifeEvent.addr true) :: mid ++ (t2, .stop) :: post =
      (pre ++ [(t1, .addr true)] ++ mid ++ [(t2, .stop)]) ++ post := by simp
  rw [e1] at h
  have h1 : ∀ s0, LifeRun idle t0 (pre ++ [(t1, .addr true)]) s0 → Served s0 := by
    intro s0 h0
    obtain ⟨sa, ha, -, hs⟩ := lifeRun_last h0
    have hh : s0.held = true := by
      cases hs with
      | addr hb => exact hb.symm
    exact (held_served h0).2 hh
  have h2 : ∀ s0, LifeRun idle t0 (pre ++ [(t1, .addr true)] ++ mid) s0 → Served s0 := fun s0 h0 =>
    (lifeRun_after served_kept h1 h0).1
  have h3 : ∀ s0, LifeRun idle t0 (pre ++ [(t1, .addr true)] ++ mid ++ [(t2, .stop)]) s0 → Shut s0 := by
    intro s0 h0
    obtain ⟨sa, ha, -, hs⟩ := lifeRun_last h0
    have hsa := h2 sa ha
    unfold Served at hsa
    unfold Shut
    cases hs
    cases hh : sa.held <;> simp_all [SyslogLife.stopped]
  obtain ⟨-, h4⟩ := lifeRun_after shut_kept h3 h
  exact ⟨fun t c hm => (h4 _ hm).1 c rfl, fun t hm => (h4 _ hm).2 rfl⟩

/-- The server has left its loop. -/
def Left (s : SyslogLife) : Prop := s.start = .leaving ∨ s.start = .over

theorem left_kept {idle : Int} (s s' : SyslogLife) (t : Int) (e : LifeEvent) (h : Left s)
    (hs : LifeStep idle { s with now := t } e s') : Left s' ∧ ∀ c, e ≠ .accept c := by
  unfold Left at h ⊢
  cases hs <;> cases hh : s.held <;> simp_all [SyslogLife.stopped, SyslogLife.setDeadline]

/-- After one `Accept` that failed, for whatever reason, the server takes no connection any
more. -/
theorem C162_failed {idle t0 : Int} {pre post : List (Int × LifeEvent)} {t : Int} {s : SyslogLife}
    (h : LifeRun idle t0 (pre ++ (t, .acceptFails) :: post) s) : NoneAccepted post := by
  rw [show pre ++ (t, LifeEvent.acceptFails) :: post = pre ++ [(t, .acceptFails)] ++ post by simp] at h
  have h1 : ∀ s0, LifeRun idle t0 (pre ++ [(t, .acceptFails)]) s0 → Left s0 := by
    intro s0 h0
    obtain ⟨sa, ha, -, hs⟩ := lifeRun_last h0
    cases hs
    exact .inl rfl
  obtain ⟨-, h4⟩ := lifeRun_after left_kept h1 h
  exact fun t c hm => h4 _ hm c rfl

/-- So it does not serve until it is stopped: here nobody stops it, a connection fails, and
there will be no other. -/
theorem C162_serving_false {idle : Int} (hi : 0 < idle) : ∃ evs s, LifeRun idle 0 evs s ∧ (∀ t, (t, .stop) ∉ evs) ∧
    ∀ post s', LifeRun idle 0 (evs ++ post) s' → NoneAccepted post := by
  have r0 : LifeRun idle 0 [] { now := 0 } := .nil
  have r1 := r0.snoc (t := 0) (Int.le_refl _) (.listen rfl)
  have r2 := r1.snoc (t := 0) (Int.le_refl _) (.hold rfl)
  have r3 := r2.snoc (t := 1) (by decide) (.acceptFails rfl)
  refine ⟨_, _, r3, by simp, fun post s' h => ?_⟩
  rw [List.append_assoc] at h
  exact C162_failed h

/-- And a `Stop` that comes before the server has told an address stops nothing. -/
theorem C162_early_stop_false {idle : Int} (hi : 0 < idle) : ∃ evs s post, LifeRun idle 0 (evs ++ (0, .stop) :: post) s ∧
    (0, .listen) ∈ evs ∧ ¬ NoneAccepted post := by
  have r0 : LifeRun idle 0 [] { now := 0 } := .nil
  have r1 := r0.snoc (t := 0) (Int.le_refl _) (.listen rfl)
  have r2 := r1.snoc (t := 0) (Int.le_refl _) .stop
  have r3 := r2.snoc (t := 0) (Int.le_refl _) (.hold rfl)
  have r4 := r3.snoc (t := 0) (e := .accept 7) (Int.le_refl _) (.accept rfl rfl (fun x hx => nomatch hx))
  exact ⟨[(0, .listen)], _, [(0, .hold), (0, .accept 7)], r4, by simp, fun h => h 0 7 (by simp)⟩

theorem life_now {idle t0 : Int} {evs : List (Int × LifeEvent)} {s : SyslogLife} (h : LifeRun idle t0 evs s) :
    s.now = lastTime t0 evs := by
  unfold lastTime
  cases h with
  | nil => rfl
  | @snoc evs s s' t e _ _ hs =>
    rw [List.getLast?_concat]
    cases hs <;> simp [SyslogLife.setDeadline, SyslogLife.stopped]
    all_goals (split <;> rfl)

theorem openSince_snoc (evs : List (Int × LifeEvent)) (t : Int) (e : LifeEvent) (c : Nat) (u : Int) :
    OpenSince (evs ++ [(t, e)]) c u ↔
      if ofConn c e = true then t = u ∧ (e = .accept c ∨ e = .message c) else OpenSince evs c u := by
  unfold OpenSince
  by_cases hc : ofConn c e = true
  · rw [if_pos hc, List.filter_append]
    simp only [List.filter_cons_of_pos (p := fun x : Int × LifeEvent => ofConn c x.2) (a := (t, e)) hc,
      List.filter_nil, List.getLast?_concat, Option.some.injEq, Prod.mk.injEq]
    constructor
    · rintro (⟨a, b⟩ | ⟨a, b⟩)
      · exact ⟨a, .inl b⟩
      · exact ⟨a, .inr b⟩
    · rintro ⟨a, b | b⟩
      · exact .inl ⟨a, b⟩
      · exact .inr ⟨a, b⟩
  · rw [if_neg hc, List.filter_append]
    simp only [List.filter_cons_of_neg (p := fun x : Int × LifeEvent => ofConn c x.2) (a := (t, e)) hc,
      List.filter_nil, List.append_nil]

/-- The open connections and their deadlines. -/
theorem life_conns {idle t0 : Int} {evs : List (Int × LifeEvent)} {s : SyslogLife} (h : LifeRun idle t0 evs s)
    (c : Nat) (d : Int) : (c, d) ∈ s.conns ↔ ∃ u, OpenSince evs c u ∧ d = u + idle := by
  induction h with
  | nil => simp [OpenSince]
  | @snoc evs s s' t e _ _ hs ih =>
    simp only [openSince_snoc]
    cases hs with
    | listen => simpa [ofConn] using ih
    | hold => simpa [ofConn] using ih
    | acceptFails => simpa [ofConn] using ih
    | leave => simp only [SyslogLife.stopped, ofConn]; split <;> simpa using ih
    | stop => simp only [SyslogLife.stopped, ofConn]; split <;> simpa using ih
    | addr => simpa [ofConn] using ih
    | @accept c' =>
      by_cases hc : c' = c
      · subst hc
        simp [SyslogLife.setDeadline, ofConn]
      · simp [SyslogLife.setDeadline, ofConn, hc, Ne.symm hc, ih]
    | @message c' =>
      by_cases hc : c' = c
      · subst hc
        simp [SyslogLife.setDeadline, ofConn]
      · simp [SyslogLife.setDeadline, ofConn, hc, Ne.symm hc, ih]
    | @timeout c' =>
      by_cases hc : c' = c
      · subst hc
        simp [ofConn]
      · simp [ofConn, hc, Ne.symm hc, ih]
    | @hangup c' =>
      by_cases hc : c' = c
      · subst hc
        simp [ofConn]
      · simp [ofConn, hc, Ne.symm hc, ih]

/-- A connection is served exactly as long as no idle timeout has passed since its last message
(or since it was made): a message is handled at any time before that, and at none after;
the connection is closed for idleness at any time after that, and at none before.  `Stop`
and a failed `Accept` change nothing about connections that are open. -/
theorem C162_connection {idle t0 : Int} {evs : List (Int × LifeEvent)} {s : SyslogLife} (h : LifeRun idle t0 evs s)
    (t : Int) (c : Nat) :
    ((∃ s', LifeRun idle t0 (evs ++ [(t, .message c)]) s') ↔
      lastTime t0 evs ≤ t ∧ ∃ u, OpenSince evs c u ∧ t < u + idle) ∧
    ((∃ s', LifeRun idle t0 (evs ++ [(t, .timeout c)]) s') ↔
      lastTime t0 evs ≤ t ∧ ∃ u, OpenSince evs c u ∧ u + idle ≤ t) := by
  constructor <;> constructor
  · rintro ⟨s', h'⟩
    obtain ⟨s0, h0, ht, hs⟩ := lifeRun_last h'
    refine ⟨life_now h0 ▸ ht, ?_⟩
    cases hs with
    | message hm hlt =>
      obtain ⟨u, hu, rfl⟩ := (life_conns h0 c _).1 hm
      exact ⟨u, hu, hlt⟩
  · rintro ⟨ht, u, hu, hlt⟩
    exact ⟨_, h.snoc (life_now h ▸ ht) (.message ((life_conns h c _).2 ⟨u, hu, rfl⟩) hlt)⟩
  · rintro ⟨s', h'⟩
    obtain ⟨s0, h0, ht, hs⟩ := lifeRun_last h'
    refine ⟨life_now h0 ▸ ht, ?_⟩
    cases hs with
    | timeout hm hle =>
      obtain ⟨u, hu, rfl⟩ := (life_conns h0 c _).1 hm
      exact ⟨u, hu, hle⟩
  · rintro ⟨ht, u, hu, hle⟩
    exact ⟨_, h.snoc (life_now h ▸ ht) (.timeout ((life_conns h c _).2 ⟨u, hu, rfl⟩) hle)⟩

/-- A server that is started, takes a connection, tells its address and is stopped: the
connection is still served, with an idle timeout of ten. -/
example : ∃ s, LifeRun 10 0 [(0, .listen), (0, .hold), (1, .accept 7), (2, .message 7), (3, .addr true), (4, .stop),
    (5, .addr false), (11, .message 7), (21, .timeout 7)] s := by
  have r0 : LifeRun 10 0 [] { now := 0 } := .nil
  have r1 := r0.snoc (t := 0) (Int.le_refl _) (.listen rfl)
  have r2 := r1.snoc (t := 0) (Int.le_refl _) (.hold rfl)
  have r3 := r2.snoc (t := 1) (e := .accept 7) (by decide) (.accept rfl rfl (fun x hx => nomatch hx))
  have r4 := r3.snoc (t := 2) (by decide) (.message (c := 7) (d := 11) (by decide) (by decide))
  have r5 := r4.snoc (t := 3) (by decide) (.addr rfl)
  have r6 := r5.snoc (t := 4) (by decide) .stop
  have r7 := r6.snoc (t := 5) (by decide) (.addr rfl)
  have r8 := r7.snoc (t := 11) (by decide) (.message (c := 7) (d := 12) (by decide) (by decide))
  exact ⟨_, r8.snoc (t := 21) (by decide) (.timeout (c := 7) (d := 21) (by decide) (by decide))⟩

/-! ## C163 -/

theorem serveRun_last {a : List ServeEvent} {x : ServeEvent} {s : ServeLife} (h : ServeRun (a ++ [x]) s) :
    ∃ s0, ServeRun a s0 ∧ s0.crashed = false ∧ ServeStep s0 x s := by
  generalize hl : a ++ [x] = l at h
  cases h with
  | nil => simp at hl
  | snoc h1 h2 h3 =>
    obtain ⟨rfl, hx⟩ := List.append_inj' hl rfl
    obtain rfl := List.head_eq_of_cons_eq hx
    exact ⟨_, h1, h2, h3⟩

theorem serveRun_after {P : ServeLife → Prop} {Q : ServeEvent → Prop}
    (hP : ∀ (s s' : ServeLife) e, P s → ServeStep s e s' → P s' ∧ Q e)
    {a b : List ServeEvent} {s : ServeLife} (ha : ∀ s0, ServeRun a s0 → P s0)
    (h : ServeRun (a ++ b) s) : P s ∧ ∀ x ∈ b, Q x := by
  induction b using List.reverseRecOn generalizing s with
  | nil => exact ⟨ha s (by simpa using h), fun x hx => nomatch hx⟩
  | append_singleton b x ih =>
    rw [← List.append_assoc] at h
    obtain ⟨s0, h1, -, h3⟩ := serveRun_last h
    obtain ⟨i1, i2⟩ := ih h1
    obtain ⟨j1, j2⟩ := hP _ _ _ i1 h3
    refine ⟨j1, fun y hy => ?_⟩
    rcases List.mem_append.1 hy with hy | hy
    · exact i2 y hy
    · rw [List.mem_singleton.1 hy]; exact j2

theorem serve_inv {evs : List ServeEvent} {s : ServeLife} (h : ServeRun evs s) :
    (s.at_ = .absent ↔ .start ∉ evs) ∧ (s.closing = 0 ↔ .closeFlag ∉ evs) ∧ s.closers ≤ s.closing ∧
      (s.stopped = true → 0 < s.closing) ∧
      (s.closing = 0 → ∀ err, s.at_ = .returned err → err = true ∧ .serveFails ∈ evs) ∧
      (.serveFails ∈ evs → s.at_ = .ended ∨ ∃ err, s.at_ = .returned err) := by
  induction h with
  | nil => simp
  | @snoc evs s s' e _ hc hs ih =>
    obtain ⟨h1, h2, h3, h4, h5, h6⟩ := ih
    cases hs with
    | start h => simp_all
    | closeFlag => simp_all
    | closeStop h => split <;> simp_all <;> omega
    | closed h _ => simp_all
    | serve h =>
      cases hst : s.stopped with
      | false => simp_all
      | true =>
        have := h4 hst
        refine ⟨by simp_all, by simpa using h2, h3, fun _ => this, fun h0 => ?_, fun _ => ?_⟩
        · exact absurd (show s.closing = 0 from h0) (by omega)
        · exact .inr ⟨true, rfl⟩
    | serveStopped h hst =>
      have := h4 hst
      refine ⟨by simp_all, by simpa using h2, h3, fun _ => this, fun h0 => ?_, fun _ => .inr ⟨_, rfl⟩⟩
      exact absurd (show s.closing = 0 from h0) (by omega)
    | serveFails h => simp_all
    | check h => simp_all
    | request h _ _ => simp_all
    | answered h => simp_all

/-- After `Close` has returned no request begins, and every request that had begun has been
answered before. -/
theorem C163_answered {pre post : List ServeEvent} {s : ServeLife} (h : ServeRun (pre ++ .closed :: post) s) :
    (∀ r, .request r ∉ post) ∧ ∀ r p q, pre = p ++ .request r :: q → .answered r ∈ q := by
  rw [show pre ++ ServeEvent.closed :: post = pre ++ [.closed] ++ post by simp] at h
  have hst : ∀ s0, ServeRun (pre ++ [.closed]) s0 → s0.stopped = true := by
    intro s0 h0
    obtain ⟨_, _, _, hs⟩ := serveRun_last h0
    cases hs
    assumption
  have hkeep : ∀ (s s' : ServeLife) e, s.stopped = true → ServeStep s e s' →
      s'.stopped = true ∧ ∀ r, e ≠ .request r := by
    intro s s' e hs hstep
    cases hstep <;> (try split) <;> simp_all
  refine ⟨fun r hm => (serveRun_after hkeep hst h).2 _ hm r rfl, ?_⟩
  rintro r p q rfl
  by_contra hq
  have hcl : ∃ s0, ServeRun (p ++ .request r :: q) s0 ∧ s0.requests = [] := by
    have : ∀ (b : List ServeEvent) {a : List ServeEvent} {s : ServeLife}, ServeRun (a ++ b) s → ∃ s0, ServeRun a s0 := by
      intro b
      induction b using List.reverseRecOn with
      | nil => intro a s h; exact ⟨s, by simpa using h⟩
      | append_singleton b x ih =>
        intro a s h
        rw [← List.append_assoc] at h
        obtain ⟨s0, h1, -⟩ := serveRun_last h
        exact ih h1
    obtain ⟨s1, h1⟩ := this post h
    obtain ⟨s0, h0, -, hs⟩ := serveRun_last h1
    cases hs
    exact ⟨_, h0, by assumption⟩
  obtain ⟨s0, h0, hnil⟩ := hcl
  rw [show p ++ ServeEvent.request r :: q = p ++ [.request r] ++ q by simp] at h0
  have hbeg : ∀ s0, ServeRun (p ++ [.request r]) s0 → r ∈ s0.requests := by
    intro s0 h0
    obtain ⟨_, _, _, hs⟩ := serveRun_last h0
    cases hs
    simp
  have hmem : ∀ (q : List ServeEvent) (s0 : ServeLife), .answered r ∉ q → ServeRun (p ++ [.request r] ++ q) s0 →
      r ∈ s0.requests := by
    intro q
    induction q using List.reverseRecOn with
    | nil => intro s0 _ h; exact hbeg s0 (by simpa using h)
    | append_singleton b x ih =>
      intro s0 hn h
      rw [← List.append_assoc] at h
      obtain ⟨s1, h1, -, hs⟩ := serveRun_last h
      have hr := ih s1 (fun hm => hn (List.mem_append_left _ hm)) h1
      have hx : x ≠ .answered r := by
        rintro rfl
        exact hn (by simp)
      cases hs with
      | closeStop => split <;> exact hr
      | request => exact List.mem_cons_of_mem _ hr
      | @answered r' _ =>
        refine List.mem_filter.2 ⟨hr, ?_⟩
        simp only [ne_eq, decide_not, Bool.not_eq_eq_eq_not, Bool.not_true, decide_eq_false_iff_not]
        rintro rfl
        exact hx rfl
      | _ => exact hr
  have := hmem q s0 hq h0
  rw [hnil] at this
  exact nomatch this

/-- The process crashes in just two cases: `Close` was called before `Start`, or the listener
failed and nobody had called `Close` when that was noticed. So closing a node that has been
started never crashes it, at whatever moments the steps of `Close` and of the starting
server are interleaved. -/
theorem C163_crash {evs : List ServeEvent} {s : ServeLife} (h : ServeRun evs s) :
    s.crashed = true ↔ (∃ pre, evs = pre ++ [.closeStop] ∧ .start ∉ pre) ∨
      ∃ pre, evs = pre ++ [.check] ∧ .serveFails ∈ pre ∧ .closeFlag ∉ pre := by
  cases h with
  | nil => simp
  | @snoc evs s s' e h0 hc hs =>
    obtain ⟨h1, h2, h3, h4, h5, h6⟩ := serve_inv h0
    have hiff : ((∃ pre, evs ++ [e] = pre ++ [.closeStop] ∧ .start ∉ pre) ∨
        ∃ pre, evs ++ [e] = pre ++ [.check] ∧ .serveFails ∈ pre ∧ .closeFlag ∉ pre) ↔
        (e = .closeStop ∧ .start ∉ evs) ∨ (e = .check ∧ .serveFails ∈ evs ∧ .closeFlag ∉ evs) := by
      constructor
      · rintro (⟨pre, he, hp⟩ | ⟨pre, he, hp⟩)
        · obtain ⟨rfl, hx⟩ := List.append_inj' he rfl
          exact .inl ⟨List.head_eq_of_cons_eq hx, hp⟩
        · obtain ⟨rfl, hx⟩ := List.append_inj' he rfl
          exact .inr ⟨List.head_eq_of_cons_eq hx, hp⟩
      · rintro (⟨rfl, hp⟩ | ⟨rfl, hp⟩)
        · exact .inl ⟨_, rfl, hp⟩
        · exact .inr ⟨_, rfl, hp⟩
    rw [hiff]
    cases hs with
    | closeStop h => split <;> simp_all
    | @check err h =>
      simp only [hc, Bool.false_or, Bool.and_eq_true, decide_eq_true_eq, reduceCtorEq, false_and, true_and, false_or]
      constructor
      · rintro ⟨he, h0⟩
        exact ⟨(h5 h0 err h).2, h2.1 h0⟩
      · rintro ⟨hf, hn⟩
        exact ⟨(h5 (h2.2 hn) err h).1, h2.2 hn⟩
    | _ => simp_all

/-- Closing a node before it is started crashes the process. -/
theorem C163_early_false : ∃ s, ServeRun [.closeFlag, .closeStop] s ∧ s.crashed = true := by
  have r0 : ServeRun [] {} := .nil
  have r1 := r0.snoc rfl .closeFlag
  exact ⟨_, r1.snoc rfl (.closeStop (by decide)), rfl⟩

/-- A node is closed while it starts and while a request is in work; another one is closed
before its server serves. Neither crashes. -/
example : (∃ s, ServeRun [.start, .serve, .request 1, .closeFlag, .closeStop, .serveStopped, .check, .answered 1,
      .closed] s ∧ s.crashed = false) ∧
    ∃ s, ServeRun [.start, .closeFlag, .closeStop, .serve, .closed, .check] s ∧ s.crashed = false := by
  have r0 : ServeRun [] {} := .nil
  have r1 := r0.snoc rfl (.start rfl)
  constructor
  · have r2 := r1.snoc rfl (.serve rfl)
    have r3 := r2.snoc rfl (.request (r := 1) rfl rfl (by decide))
    have r4 := r3.snoc rfl .closeFlag
    have r5 := r4.snoc rfl (.closeStop (by decide))
    have r6 := r5.snoc rfl (.serveStopped (err := true) rfl rfl)
    have r7 := r6.snoc rfl (.check rfl)
    have r8 := r7.snoc rfl (.answered (r := 1) (by decide))
    exact ⟨_, r8.snoc rfl (.closed rfl rfl), rfl⟩
  · have r2 := r1.snoc rfl .closeFlag
    have r3 := r2.snoc rfl (.closeStop (by decide))
    have r4 := r3.snoc rfl (.serve rfl)
    have r5 := r4.snoc rfl (.closed rfl rfl)
    exact ⟨_, r5.snoc rfl (.check rfl), rfl⟩

end LogCache
