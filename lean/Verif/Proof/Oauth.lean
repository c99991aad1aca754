import Verif.Model.Client
import Verif.Spec.Client

/-! Lemmas about the Oauth2 client. -/

namespace LogCache
open Spec

/-! ### One call after the other -/

/-- What the property asks of each event, given what happened before it. -/
def OGood (past : List OEv) : OEv → Prop
  | .sent k a => (Own past k → Current past a) ∧ ∀ b, OEv.called k (some b) ∈ past → a = b
  | .asked k => Own past k ∧ ∀ t, ¬ Current past t
  | _ => True

def OAll : List OEv → List OEv → Prop
  | _, [] => True
  | past, e :: es => OGood past e ∧ OAll (past ++ [e]) es

theorem OAll_append (past a b : List OEv) : OAll past (a ++ b) ↔ OAll past a ∧ OAll (past ++ a) b := by
  induction a generalizing past with
  | nil => simp [OAll]
  | cons e es ih => simp [OAll, ih, and_assoc]

theorem OAll_split {past evs : List OEv} (h : OAll past evs) {pre post : List OEv} {e : OEv}
    (he : evs = pre ++ e :: post) : OGood (past ++ pre) e := by
  subst he
  rw [OAll_append] at h
  exact h.2.1

theorem current_snoc_fetched (evs : List OEv) (k : Nat) (u t : Str) :
    Current (evs ++ [.fetched k (some u)]) t ↔ t = u := by
  constructor
  · rintro ⟨pre, j, post, he, hf, -⟩
    rcases List.eq_nil_or_concat post with rfl | ⟨post', x, rfl⟩
    · have := List.append_inj_right' he rfl
      simp at this; exact this.2.symm
    · rw [List.concat_eq_append, ← List.cons_append, ← List.append_assoc] at he
      have := List.append_inj_right' he rfl
      simp only [List.cons.injEq, and_true] at this
      subst this
      exact absurd (by simp) (hf k u)
  · rintro rfl
    exact ⟨evs, k, [], rfl, by simp, by simp⟩

theorem current_snoc_failed (evs : List OEv) (k : Nat) (c : Nat) (t : Str) (ho : Own evs k)
    (hc : ¬ Success c) : ¬ Current (evs ++ [.answered k (some c)]) t := by
  rintro ⟨pre, j, post, he, -, hs⟩
  rcases List.eq_nil_or_concat post with rfl | ⟨post', x, rfl⟩
  · have := List.append_inj_right' he rfl
    simp at this
  · rw [List.concat_eq_append, ← List.cons_append, ← List.append_assoc] at he
    have := List.append_inj_right' he rfl
    simp only [List.cons.injEq, and_true] at this
    subst this
    exact hc (hs k c (by simp) (by unfold Own at *; simp [ho]))

theorem current_snoc_other (evs : List OEv) (e : OEv) (t : Str)
    (hf : ∀ k u, e ≠ .fetched k (some u))
    (ha : ∀ k c, e = .answered k (some c) → Own evs k → Success c)
    (hn : ∀ k, e = .called k none → ∀ c, OEv.answered k c ∉ evs) :
    Current (evs ++ [e]) t ↔ Current evs t := by
  constructor
  · rintro ⟨pre, j, post, he, hf', hs⟩
    rcases List.eq_nil_or_concat post with rfl | ⟨post', x, rfl⟩
    · have := List.append_inj_right' he rfl
      simp at this
      exact absurd this (hf _ _)
    · rw [List.concat_eq_append, ← List.cons_append, ← List.append_assoc] at he
      have h2 := List.append_inj_left' he rfl
      exact ⟨pre, j, post', h2, fun k u h => hf' k u (by simp [h]),
        fun k c h ho => hs k c (by simp [h]) (by unfold Own at *; simp [ho])⟩
  · rintro ⟨pre, j, post, he, hf', hs⟩
    refine ⟨pre, j, post ++ [e], by simp [he], ?_, ?_⟩
    · intro k u h
      rcases List.mem_append.1 h with h | h
      · exact hf' k u h
      · exact hf k u (List.mem_singleton.1 h).symm
    · intro k c h ho
      have ho' : Own evs k ∨ e = .called k none := by
        unfold Own at *
        rcases List.mem_append.1 ho with ho | ho
        · exact .inl ho
        · exact .inr (List.mem_singleton.1 ho).symm
      rcases List.mem_append.1 h with hp | h
      · rcases ho' with ho' | rfl
        · exact hs k c hp ho'
        · exact absurd (by rw [he]; exact List.mem_append_right _ (List.mem_cons_of_mem _ hp)) (hn k rfl (some c))
      · have h3 := (List.mem_singleton.1 h).symm
        rcases ho' with ho' | rfl
        · exact ha k c h3 ho'
        · cases h3

def OEv.id : OEv → Nat
  | .called i _ => i
  | .asked i => i
  | .fetched i _ => i
  | .sent i _ => i
  | .answered i _ => i

/-- What holds between two calls. -/
structure OSeqInv (past : List OEv) (i : Nat) (token : Str) : Prop where
  ids : ∀ e ∈ past, e.id < i
  have_ : token ≠ [] → ∀ t, Current past t ↔ t = token
  none_ : token = [] → ∀ t, ¬ Current past t

theorem is2xx_iff (c : Nat) : is2xx c = true ↔ Success c := by simp [is2xx, Success]

theorem tokenOf_ne (a b : Str) : tokenOf a b ≠ [] := by simp [tokenOf]

theorem own_snoc {evs : List OEv} {e : OEv} {k : Nat} (h : Own evs k) : Own (evs ++ [e]) k := by
  unfold Own at *; simp [h]

/-- Events of call `i`, after a past without it. -/
theorem fresh_answered {past : List OEv} {i : Nat} (h : ∀ e ∈ past, e.id < i) (c : Option Nat) :
    OEv.answered i c ∉ past := fun hm => by have := h _ hm; simp [OEv.id] at this

/-- The token after the answer. -/
def oFinish (ans : Option Nat) (t : Str) : Str :=
  match ans with
  | none => t
  | some c => if is2xx c then t else []

theorem doAlone_have {i : Nat} {token : Str} (ht : token ≠ []) (tok : Option (Str × Str)) (ans : Option Nat) :
    doAlone i token none tok ans = ([.called i none, .sent i token, .answered i ans], oFinish ans token) := by
  cases ans <;> simp [doAlone, oFinish, ht]

theorem doAlone_fetch (i : Nat) (ty at' : Str) (ans : Option Nat) :
    doAlone i [] none (some (ty, at')) ans =
      ([.called i none, .asked i, .fetched i (some (tokenOf ty at')), .sent i (tokenOf ty at'), .answered i ans],
        oFinish ans (tokenOf ty at')) := by
  cases ans <;> simp [doAlone, oFinish]

theorem doAlone_good {past : List OEv} {i : Nat} {token : Str} (h : OSeqInv past i token)
    (pre : Option Str) (tok : Option (Str × Str)) (ans : Option Nat) :
    OAll past (doAlone i token pre tok ans).1 ∧
      OSeqInv (past ++ (doAlone i token pre tok ans).1) (i + 1) (doAlone i token pre tok ans).2 := by
  have hno : ¬ Own past i := fun hm => by have := h.ids _ hm; simp [OEv.id] at this
  have hnp : ∀ b, OEv.called i (some b) ∉ past := fun b hm => by have := h.ids _ hm; simp [OEv.id] at this
  have hcall : ∀ t, Current (past ++ [.called i pre]) t ↔ Current past t := fun t =>
    current_snoc_other _ _ _ (by simp) (by simp) (by
      intro k hk; cases hk; exact fun c => fresh_answered h.ids c)
  have hsent : ∀ (evs : List OEv) a t, Current (evs ++ [.sent i a]) t ↔ Current evs t := fun evs a t =>
    current_snoc_other _ _ _ (by simp) (by simp) (by simp)
  have hids : ∀ evs : List OEv, (∀ e ∈ evs, e.id = i) → ∀ e ∈ past ++ evs, e.id < i + 1 := by
    intro evs he e hm
    rcases List.mem_append.1 hm with hm | hm
    · have := h.ids e hm; omega
    · have := he e hm; omega
  cases pre with
  | some a =>
    have hno' : ¬ Own (past ++ [.called i (some a)]) i := by unfold Own at *; simpa using hno
    refine ⟨⟨trivial, ⟨fun ho => absurd ho hno', ?_⟩, trivial, trivial⟩, ?_⟩
    · intro b hb
      rcases List.mem_append.1 hb with hb | hb
      · exact absurd hb (hnp b)
      · simp at hb; exact hb.symm
    · have hc : ∀ t, Current (past ++ (doAlone i token (some a) tok ans).1) t ↔ Current past t := by
        intro t
        have : past ++ (doAlone i token (some a) tok ans).1 =
          ((past ++ [.called i (some a)]) ++ [.sent i a]) ++ [.answered i ans] := by simp [doAlone]
        rw [this, current_snoc_other _ _ _ (by simp) ?_ (by simp), hsent, hcall]
        intro k c hk ho
        cases hk
        unfold Own at ho hno'; simp at ho hno'; exact absurd ho hno'
      exact ⟨hids _ (by simp [doAlone, OEv.id]), fun ht t => by rw [hc]; exact h.have_ ht t,
        fun ht t => by rw [hc]; exact h.none_ ht t⟩
  | none =>
    have ho1 : Own (past ++ [.called i none]) i := by unfold Own; simp
    have hnp1 : ∀ b, OEv.called i (some b) ∉ past ++ [OEv.called i none] := by
      intro b hb; simp at hb; exact hnp b hb
    -- the end of a call whose request was sent
    have hend : ∀ (evs : List OEv) (u : Str), u ≠ [] → Own evs i → (∀ t, Current evs t ↔ t = u) →
        (∀ e ∈ evs ++ [.answered i ans], e.id < i + 1) →
        OSeqInv (evs ++ [.answered i ans]) (i + 1)
          (oFinish ans u) := by
      intro evs u hu ho hc hi
      unfold oFinish
      cases ans with
      | none =>
        refine ⟨hi, fun _ t => ?_, fun hn => absurd hn hu⟩
        rw [current_snoc_other _ _ _ (by simp) (by simp) (by simp)]; exact hc t
      | some c =>
        by_cases h2 : is2xx c = true
        · simp only [h2, if_true]
          refine ⟨hi, fun _ t => ?_, fun hn => absurd hn hu⟩
          rw [current_snoc_other _ _ _ (by simp) ?_ (by simp)]
          · exact hc t
          · intro k d hk _; cases hk; exact (is2xx_iff c).1 h2
        · simp only [h2]
          refine ⟨hi, fun hn => absurd rfl hn, fun _ t => ?_⟩
          exact current_snoc_failed _ _ _ _ ho (fun hs => h2 ((is2xx_iff c).2 hs))
    by_cases ht : token = []
    · have hnone := h.none_ ht
      cases tok with
      | none =>
        have e : doAlone i token none none ans = ([.called i none, .asked i, .fetched i none], token) := by
          simp [doAlone, ht]
        rw [e]
        refine ⟨⟨trivial, ⟨ho1, fun t => by rw [hcall]; exact hnone t⟩, trivial, trivial⟩, ?_⟩
        refine ⟨hids _ (by simp [OEv.id]), fun hn => absurd ht hn, fun _ t => ?_⟩
        have : past ++ [.called i none, .asked i, .fetched i none] =
          ((past ++ [.called i none]) ++ [.asked i]) ++ [.fetched i none] := by simp
        rw [this, current_snoc_other _ _ _ (by simp) (by simp) (by simp),
          current_snoc_other _ _ _ (by simp) (by simp) (by simp), hcall]
        exact hnone t
      | some p =>
        obtain ⟨ty, at'⟩ := p
        subst ht
        rw [doAlone_fetch]
        refine ⟨⟨trivial, ⟨ho1, fun t => by rw [hcall]; exact hnone t⟩, trivial, ⟨fun _ => ?_, ?_⟩, trivial, trivial⟩, ?_⟩
        · exact (current_snoc_fetched _ _ _ _).2 rfl
        · intro b hb
          simp at hb; exact absurd hb (hnp b)
        · have : past ++ [.called i none, .asked i, .fetched i (some (tokenOf ty at')), .sent i (tokenOf ty at'), .answered i ans] =
            ((((past ++ [.called i none]) ++ [.asked i]) ++ [.fetched i (some (tokenOf ty at'))]) ++ [.sent i (tokenOf ty at')]) ++
              [.answered i ans] := by simp
          rw [this]
          refine hend _ _ (tokenOf_ne _ _) (by unfold Own; simp) (fun t => ?_) ?_
          · rw [hsent, current_snoc_fetched]
          · have := hids [.called i none, .asked i, .fetched i (some (tokenOf ty at')), .sent i (tokenOf ty at'), .answered i ans]
              (by simp [OEv.id])
            simpa using this
    · have hc := h.have_ ht
      rw [doAlone_have ht]
      refine ⟨⟨trivial, ⟨fun _ => by rw [hcall]; exact (hc token).2 rfl, fun b hb => absurd hb (hnp1 b)⟩, trivial, trivial⟩, ?_⟩
      have : past ++ [.called i none, .sent i token, .answered i ans] =
        ((past ++ [.called i none]) ++ [.sent i token]) ++ [.answered i ans] := by simp
      rw [this]
      refine hend _ _ ht (by unfold Own; simp) (fun t => ?_) ?_
      · rw [hsent, hcall]; exact hc t
      · have := hids [.called i none, .sent i token, .answered i ans] (by simp [OEv.id])
        simpa using this

theorem doSeq_good {past : List OEv} {i : Nat} {token : Str} (h : OSeqInv past i token) (calls : List OCall) :
    OAll past (doSeq i token calls) := by
  induction calls generalizing past i token with
  | nil => trivial
  | cons c cs ih =>
    have := doAlone_good h c.pre c.tok c.ans
    rw [doSeq, OAll_append]
    exact ⟨this.1, ih this.2⟩

theorem OSeqInv_nil : OSeqInv [] 0 [] :=
  ⟨by simp, fun h => absurd rfl h, fun _ t => by rintro ⟨pre, j, post, he, -⟩; simp at he⟩

/-! ### Calls side by side -/

theorem ORun_induct {P : List OEv → OState → Prop} (h0 : P [] {})
    (hs : ∀ evs s evs' s', ORun evs s → P evs s → OStep s evs' s' → P (evs ++ evs') s')
    {evs : List OEv} {s : OState} (h : ORun evs s) : P evs s := by
  induction h with
  | nil => exact h0
  | step h1 h2 ih => exact hs _ _ _ _ h1 ih h2

/-- Is the call one that uses the client's token, as far as its place tells? -/
def OThread.own : OThread → Option Bool
  | .sending _ o => some o
  | .waiting o => some o
  | .done => none
  | _ => some true

/-- Does the call hold the lock? -/
def OThread.inLock : OThread → Bool
  | .checked | .fetching | .stored => true
  | _ => false

/-- The events agree with the places of the calls. -/
structure OInv (evs : List OEv) (s : OState) : Prop where
  ids : ∀ e ∈ evs, e.id < s.threads.length
  own : ∀ (i : Nat) (t : OThread), s.threads[i]? = some t → t.own = some true → Own evs i ∧ ∀ a, OEv.called i (some a) ∉ evs
  pre : ∀ (i : Nat) (t : OThread), s.threads[i]? = some t → t.own = some false → ¬ Own evs i
  preA : ∀ (i : Nat) (a : Str), s.threads[i]? = some (.sending a false) → OEv.called i (some a) ∈ evs ∧ ∀ b, OEv.called i (some b) ∈ evs → b = a
  tok : s.token = [] ∨ ∃ k, OEv.fetched k (some s.token) ∈ evs
  snd : ∀ (i : Nat) (a : Str), s.threads[i]? = some (.sending a true) → a = [] ∨ ∃ k, OEv.fetched k (some a) ∈ evs
  lock1 : ∀ (i j : Nat) (t u : OThread), s.threads[i]? = some t → s.threads[j]? = some u → t.inLock = true → u.inLock = true → i = j
  lock2 : ∀ (i : Nat) (t : OThread), s.threads[i]? = some t → t.inLock = true → s.locked = true
  pend : ∀ (i : Nat) (p m : List OEv), evs = p ++ .asked i :: m → (∀ r, OEv.fetched i r ∉ m) → s.threads[i]? = some .fetching

theorem set_get {l : List OThread} {i j : Nat} {t u : OThread} (h : (l.set i t)[j]? = some u) :
    (j = i ∧ u = t) ∨ (j ≠ i ∧ l[j]? = some u) := by
  rw [List.getElem?_set] at h
  split at h
  · rename_i hij
    split at h
    · exact .inl ⟨hij.symm, (Option.some.inj h).symm⟩
    · cases h
  · rename_i hij
    exact .inr ⟨fun he => hij he.symm, h⟩

theorem OInv_set {evs evs' : List OEv} {s s' : OState} (h : OInv evs s) {i : Nat} {t0 t : OThread}
    (h0 : s.threads[i]? = some t0) (hthreads : s'.threads = s.threads.set i t)
    (hlen : evs' = [] ∨ ∃ e, evs' = [e])
    (hid : ∀ e ∈ evs', e.id = i) (hcall : ∀ k p, OEv.called k p ∉ evs')
    (hown : t.own = none ∨ t.own = t0.own) (hpre : ∀ a, t ≠ .sending a false)
    (htok : s'.token = [] ∨ s'.token = s.token ∨ ∃ k, OEv.fetched k (some s'.token) ∈ evs')
    (hsnd : ∀ a, t = .sending a true → a = s.token)
    (hlock : (t.inLock = true → s'.locked = true ∧ (t0.inLock = true ∨ s.locked = false)) ∧
      (s'.locked = s.locked ∨ s'.locked = true ∨ t0.inLock = true))
    (hpend : t = .fetching ∨ ((∀ k, OEv.asked k ∉ evs') ∧ (t0 ≠ .fetching ∨ ∃ r, evs' = [.fetched i r]))) :
    OInv (evs ++ evs') s' := by
  have hi : i < s.threads.length := (List.getElem?_eq_some_iff.1 h0).1
  have hmem : ∀ k p, OEv.called k p ∈ evs ++ evs' ↔ OEv.called k p ∈ evs := by
    intro k p; rw [List.mem_append]; exact ⟨fun h => h.resolve_right (hcall k p), .inl⟩
  have hOwn : ∀ k, Own (evs ++ evs') k ↔ Own evs k := fun k => hmem k none
  constructor
  · intro e he
    rw [hthreads, List.length_set]
    rcases List.mem_append.1 he with he | he
    · exact h.ids e he
    · rw [hid e he]; exact hi
  · intro k u hk hu
    rw [hthreads] at hk
    simp only [hOwn, hmem]
    rcases set_get hk with ⟨rfl, rfl⟩ | ⟨-, hk⟩
    · rcases hown with hown | hown
      · rw [hown] at hu; cases hu
      · exact h.own _ _ h0 (hown ▸ hu)
    · exact h.own _ _ hk hu
  · intro k u hk hu
    rw [hthreads] at hk
    rw [hOwn]
    rcases set_get hk with ⟨rfl, rfl⟩ | ⟨-, hk⟩
    · rcases hown with hown | hown
      · rw [hown] at hu; cases hu
      · exact h.pre _ _ h0 (hown ▸ hu)
    · exact h.pre _ _ hk hu
  · intro k a hk
    rw [hthreads] at hk
    simp only [hmem]
    rcases set_get hk with ⟨rfl, hu⟩ | ⟨-, hk⟩
    · exact absurd hu.symm (hpre a)
    · exact h.preA _ _ hk
  · rcases htok with ht | ht | ⟨k, ht⟩
    · exact .inl ht
    · rw [ht]
      rcases h.tok with h1 | ⟨k, h1⟩
      · exact .inl h1
      · exact .inr ⟨k, List.mem_append_left _ h1⟩
    · exact .inr ⟨k, List.mem_append_right _ ht⟩
  · intro k a hk
    rw [hthreads] at hk
    have hw : (a = [] ∨ ∃ k, OEv.fetched k (some a) ∈ evs) → a = [] ∨ ∃ k, OEv.fetched k (some a) ∈ evs ++ evs' := by
      rintro (h1 | ⟨k, h1⟩)
      · exact .inl h1
      · exact .inr ⟨k, List.mem_append_left _ h1⟩
    rcases set_get hk with ⟨rfl, hu⟩ | ⟨-, hk⟩
    · exact hw (hsnd a hu.symm ▸ h.tok)
    · exact hw (h.snd _ _ hk)
  · intro j k u v hj hk hu hv
    rw [hthreads] at hj hk
    have hx : ∀ l w, l ≠ i → s.threads[l]? = some w → w.inLock = true → t.inLock = true → False := by
      intro l w hl hw hw' ht
      rcases (hlock.1 ht).2 with h1 | h1
      · exact hl (h.lock1 _ _ _ _ hw h0 hw' h1)
      · rw [h.lock2 _ _ hw hw'] at h1; cases h1
    rcases set_get hj with ⟨hj, hut⟩ | ⟨hne, hj⟩ <;> rcases set_get hk with ⟨hk, hvt⟩ | ⟨hne', hk⟩
    · rw [hj, hk]
    · exact (hx _ _ hne' hk hv (hut ▸ hu)).elim
    · exact (hx _ _ hne hj hu (hvt ▸ hv)).elim
    · exact h.lock1 _ _ _ _ hj hk hu hv
  · intro k u hk hu
    rw [hthreads] at hk
    rcases set_get hk with ⟨rfl, rfl⟩ | ⟨hne, hk⟩
    · exact (hlock.1 hu).1
    · rcases hlock.2 with h1 | h1 | h1
      · rw [h1]; exact h.lock2 _ _ hk hu
      · exact h1
      · exact absurd (h.lock1 _ _ _ _ hk h0 hu h1) hne
  · intro k p m he hm
    have hget : s.threads[k]? = some .fetching → (k = i → t = .fetching) → s'.threads[k]? = some .fetching := by
      intro h1 h2
      rw [hthreads, List.getElem?_set]
      by_cases hki : i = k
      · subst hki; simp [hi, h2 rfl]
      · rw [if_neg hki]; exact h1
    rcases hlen with rfl | ⟨e, rfl⟩
    · rw [List.append_nil] at he
      have h1 := h.pend k p m he hm
      refine hget h1 ?_
      rintro rfl
      rcases hpend with hp | ⟨-, hp | ⟨r, hp⟩⟩
      · exact hp
      · rw [h0] at h1; exact absurd (Option.some.inj h1) hp
      · cases hp
    · rcases List.eq_nil_or_concat m with rfl | ⟨m', x, rfl⟩
      · have h2 := List.append_inj_right' he rfl
        simp only [List.cons.injEq, and_true] at h2
        subst h2
        have hki : k = i := hid (.asked k) (by simp)
        subst hki
        rcases hpend with hp | ⟨hp, -⟩
        · rw [hthreads, List.getElem?_set]; simp [hi, hp]
        · exact absurd (by simp) (hp k)
      · rw [List.concat_eq_append, ← List.cons_append, ← List.append_assoc] at he
        have h2 := List.append_inj_left' he rfl
        have h3 := List.append_inj_right' he rfl
        simp only [List.cons.injEq, and_true] at h3
        subst h3
        have h1 := h.pend k p m' h2 (fun r hr => hm r (by simp [hr]))
        refine hget h1 ?_
        rintro rfl
        rcases hpend with hp | ⟨-, hp | ⟨r, hp⟩⟩
        · exact hp
        · rw [h0] at h1; exact absurd (Option.some.inj h1) hp
        · simp only [List.cons.injEq, and_true] at hp
          subst hp
          exact absurd (by simp) (hm r)

theorem append_get {l : List OThread} {j : Nat} {t u : OThread} (h : (l ++ [t])[j]? = some u) :
    (j = l.length ∧ u = t) ∨ (j < l.length ∧ l[j]? = some u) := by
  rw [List.getElem?_append] at h
  split at h
  · rename_i hl; exact .inr ⟨hl, h⟩
  · rename_i hl
    have : j - l.length = 0 := by
      by_cases h0 : j - l.length = 0
      · exact h0
      · rw [List.getElem?_eq_none (by simp; omega)] at h; cases h
    rw [this] at h
    exact .inl ⟨by omega, by simpa using h.symm⟩

theorem OInv_call {evs : List OEv} {s : OState} (h : OInv evs s) (pre : Option Str) (t : OThread)
    (ht : (pre = none ∧ t = .locking) ∨ ∃ a, pre = some a ∧ t = .sending a false) :
    OInv (evs ++ [.called s.threads.length pre]) { s with threads := s.threads ++ [t] } := by
  have hfresh : ∀ p, OEv.called s.threads.length p ∉ evs := fun p hm => by
    have := h.ids _ hm; simp [OEv.id] at this
  have hmem : ∀ k p, k < s.threads.length →
      (OEv.called k p ∈ evs ++ [.called s.threads.length pre] ↔ OEv.called k p ∈ evs) := by
    intro k p hk
    simp only [List.mem_append, List.mem_singleton, OEv.called.injEq]
    exact ⟨fun h => h.resolve_right (fun h => by omega), .inl⟩
  have hnl : t.inLock = false := by rcases ht with ⟨-, rfl⟩ | ⟨a, -, rfl⟩ <;> rfl
  constructor
  · intro e he
    simp only [List.length_append, List.length_singleton]
    rcases List.mem_append.1 he with he | he
    · have := h.ids e he; omega
    · rw [List.mem_singleton.1 he]; simp [OEv.id]
  · intro k u hk hu
    rcases append_get hk with ⟨rfl, rfl⟩ | ⟨hl, hk⟩
    · rcases ht with ⟨rfl, rfl⟩ | ⟨a, rfl, rfl⟩
      · refine ⟨by unfold Own; simp, fun a ha => ?_⟩
        simp at ha; exact hfresh _ ha
      · cases hu
    · unfold Own; simp only [hmem k _ hl]; exact h.own _ _ hk hu
  · intro k u hk hu
    rcases append_get hk with ⟨rfl, rfl⟩ | ⟨hl, hk⟩
    · rcases ht with ⟨rfl, rfl⟩ | ⟨a, rfl, rfl⟩
      · cases hu
      · intro ho; unfold Own at ho; simp at ho; exact hfresh _ ho
    · unfold Own; simp only [hmem k _ hl]; exact h.pre _ _ hk hu
  · intro k a hk
    rcases append_get hk with ⟨rfl, hu⟩ | ⟨hl, hk⟩
    · rcases ht with ⟨rfl, rfl⟩ | ⟨b, rfl, rfl⟩
      · cases hu
      · cases hu
        refine ⟨by simp, fun b hb => ?_⟩
        rcases List.mem_append.1 hb with hb | hb
        · exact absurd hb (hfresh _)
        · simp at hb; exact hb
    · simp only [hmem k _ hl]; exact h.preA _ _ hk
  · rcases h.tok with h1 | ⟨k, h1⟩
    · exact .inl h1
    · exact .inr ⟨k, List.mem_append_left _ h1⟩
  · intro k a hk
    rcases append_get hk with ⟨rfl, hu⟩ | ⟨hl, hk⟩
    · rcases ht with ⟨rfl, rfl⟩ | ⟨b, rfl, rfl⟩ <;> cases hu
    · rcases h.snd _ _ hk with h1 | ⟨k, h1⟩
      · exact .inl h1
      · exact .inr ⟨k, List.mem_append_left _ h1⟩
  · intro j k u v hj hk hu hv
    rcases append_get hj with ⟨-, rfl⟩ | ⟨-, hj⟩
    · rw [hnl] at hu; cases hu
    · rcases append_get hk with ⟨-, rfl⟩ | ⟨-, hk⟩
      · rw [hnl] at hv; cases hv
      · exact h.lock1 _ _ _ _ hj hk hu hv
  · intro k u hk hu
    rcases append_get hk with ⟨-, rfl⟩ | ⟨-, hk⟩
    · rw [hnl] at hu; cases hu
    · exact h.lock2 _ _ hk hu
  · intro k p m he hm
    rcases List.eq_nil_or_concat m with rfl | ⟨m', x, rfl⟩
    · have h2 := List.append_inj_right' he rfl
      simp at h2
    · rw [List.concat_eq_append, ← List.cons_append, ← List.append_assoc] at he
      have h1 := h.pend k p m' (List.append_inj_left' he rfl) (fun r hr => hm r (by simp [hr]))
      have hl := (List.getElem?_eq_some_iff.1 h1).1
      show (s.threads ++ [t])[k]? = _
      rw [List.getElem?_append_left hl]; exact h1

theorem OInv_step {evs evs' : List OEv} {s s' : OState} (h : OInv evs s) (st : OStep s evs' s') :
    OInv (evs ++ evs') s' := by
  cases st with
  | callPre a => exact OInv_call h _ _ (.inr ⟨a, rfl, rfl⟩)
  | call => exact OInv_call h _ _ (.inl ⟨rfl, rfl⟩)
  | lockHave h0 hl ht =>
    exact OInv_set h h0 rfl (.inl rfl) (by simp) (by simp) (by simp [OThread.own]) (by simp)
      (.inr (.inl rfl)) (by simp) ⟨fun _ => ⟨rfl, .inr hl⟩, .inr (.inl rfl)⟩ (.inr ⟨by simp, .inl (by simp)⟩)
  | lockFetch h0 hl ht =>
    exact OInv_set h h0 rfl (.inr ⟨_, rfl⟩) (by simp [OEv.id]) (by simp) (by simp [OThread.own]) (by simp)
      (.inr (.inl rfl)) (by simp) ⟨fun _ => ⟨rfl, .inr hl⟩, .inr (.inl rfl)⟩ (.inl rfl)
  | useToken h0 =>
    exact OInv_set h h0 rfl (.inl rfl) (by simp) (by simp) (by simp [OThread.own]) (by simp)
      (.inr (.inl rfl)) (by intro a ha; cases ha; rfl) ⟨fun hc => (nomatch hc), .inr (.inr rfl)⟩
      (.inr ⟨by simp, .inl (by simp)⟩)
  | fetchFail h0 =>
    exact OInv_set h h0 rfl (.inr ⟨_, rfl⟩) (by simp [OEv.id]) (by simp) (.inl rfl) (by simp)
      (.inr (.inl rfl)) (by simp) ⟨fun hc => (nomatch hc), .inr (.inr rfl)⟩ (.inr ⟨by simp, .inr ⟨_, rfl⟩⟩)
  | fetchOk ty at' h0 =>
    exact OInv_set h h0 rfl (.inr ⟨_, rfl⟩) (by simp [OEv.id]) (by simp) (by simp [OThread.own]) (by simp)
      (.inr (.inr ⟨_, by simp [OState.goto]; rfl⟩)) (by simp) ⟨fun _ => ⟨h.lock2 _ _ h0 rfl, .inl rfl⟩, .inl rfl⟩
      (.inr ⟨by simp, .inr ⟨_, rfl⟩⟩)
  | useStored h0 =>
    exact OInv_set h h0 rfl (.inl rfl) (by simp) (by simp) (by simp [OThread.own]) (by simp)
      (.inr (.inl rfl)) (by intro a ha; cases ha; rfl) ⟨fun hc => (nomatch hc), .inr (.inr rfl)⟩
      (.inr ⟨by simp, .inl (by simp)⟩)
  | send h0 =>
    exact OInv_set h h0 rfl (.inr ⟨_, rfl⟩) (by simp [OEv.id]) (by simp) (by simp [OThread.own]) (by simp)
      (.inr (.inl rfl)) (by simp) ⟨fun hc => (nomatch hc), .inl rfl⟩ (.inr ⟨by simp, .inl (by simp)⟩)
  | answer st h0 hs =>
    exact OInv_set h h0 rfl (.inr ⟨_, rfl⟩) (by simp [OEv.id]) (by simp) (.inl rfl) (by simp)
      (.inr (.inl rfl)) (by simp) ⟨fun hc => (nomatch hc), .inl rfl⟩ (.inr ⟨by simp, .inl (by simp)⟩)
  | refused c h0 hs =>
    exact OInv_set h h0 rfl (.inr ⟨_, rfl⟩) (by simp [OEv.id]) (by simp) (by simp [OThread.own]) (by simp)
      (.inr (.inl rfl)) (by simp) ⟨fun hc => (nomatch hc), .inl rfl⟩ (.inr ⟨by simp, .inl (by simp)⟩)
  | clear h0 =>
    exact OInv_set h h0 rfl (.inl rfl) (by simp) (by simp) (.inl rfl) (by simp)
      (.inl rfl) (by simp) ⟨fun hc => (nomatch hc), .inl rfl⟩ (.inr ⟨by simp, .inl (by simp)⟩)

theorem OInv_run {evs : List OEv} {s : OState} (h : ORun evs s) : OInv evs s := by
  refine ORun_induct ?_ (fun _ _ _ _ _ ih st => OInv_step ih st) h
  exact ⟨by simp, by simp, by simp, by simp, .inl rfl, by simp, by simp, by simp, by simp⟩

/-- A run can be cut before any of its events. -/
theorem ORun_cut {evs : List OEv} {s : OState} (h : ORun evs s) {pre post : List OEv} {e : OEv}
    (he : evs = pre ++ e :: post) : ∃ s1 s2, ORun pre s1 ∧ OStep s1 [e] s2 := by
  induction h generalizing pre post e with
  | nil => simp at he
  | @step evs evs' s s' h1 st ih =>
    rcases (by cases st <;> simp : evs' = [] ∨ ∃ e, evs' = [e]) with rfl | ⟨x, rfl⟩
    · rw [List.append_nil] at he; exact ih he
    · rcases List.eq_nil_or_concat post with rfl | ⟨post', y, rfl⟩
      · have h2 := List.append_inj_right' he rfl
        have h3 := List.append_inj_left' he rfl
        simp only [List.cons.injEq, and_true] at h2
        subst h2; subst h3
        exact ⟨_, _, h1, st⟩
      · rw [List.concat_eq_append, ← List.cons_append, ← List.append_assoc] at he
        exact ih (List.append_inj_left' he rfl)

/-- No request that relies on the client's token has been refused. -/
def NoFailure (evs : List OEv) : Prop := ∀ k c, Own evs k → OEv.answered k (some c) ∈ evs → Success c

/-- Then the token never goes away. -/
structure OKeep (s : OState) : Prop where
  clear : ∀ i : Nat, s.threads[i]? ≠ some .clearing
  tok : ∀ (i : Nat) (t : OThread), s.threads[i]? = some t → t = .checked ∨ t = .stored → s.token ≠ []
  snd : ∀ (i : Nat) (a : Str), s.threads[i]? = some (.sending a true) → a ≠ []

theorem OKeep_set {s s' : OState} (h : OKeep s) {i : Nat} {t : OThread}
    (hthreads : s'.threads = s.threads.set i t) (htok : s'.token = s.token ∨ s'.token ≠ [])
    (hc : t ≠ .clearing) (ht : t = .checked ∨ t = .stored → s'.token ≠ [])
    (hs : ∀ a, t = .sending a true → a ≠ []) : OKeep s' := by
  constructor
  · intro k hk
    rw [hthreads] at hk
    rcases set_get hk with ⟨-, hu⟩ | ⟨-, hk⟩
    · exact hc hu.symm
    · exact h.clear k hk
  · intro k u hk hu
    rw [hthreads] at hk
    rcases set_get hk with ⟨-, rfl⟩ | ⟨-, hk⟩
    · exact ht hu
    · rcases htok with h1 | h1
      · rw [h1]; exact h.tok _ _ hk hu
      · exact h1
  · intro k a hk
    rw [hthreads] at hk
    rcases set_get hk with ⟨-, hu⟩ | ⟨-, hk⟩
    · exact hs a hu.symm
    · exact h.snd _ _ hk

theorem OKeep_call {s : OState} (h : OKeep s) (t : OThread) (ht : t = .locking ∨ ∃ a, t = .sending a false) :
    OKeep { s with threads := s.threads ++ [t] } := by
  constructor
  · intro k hk
    rcases append_get hk with ⟨-, hu⟩ | ⟨-, hk⟩
    · subst hu; rcases ht with ht | ⟨a, ht⟩ <;> cases ht
    · exact h.clear k hk
  · intro k u hk hu
    rcases append_get hk with ⟨-, rfl⟩ | ⟨-, hk⟩
    · rcases ht with rfl | ⟨a, rfl⟩ <;> simp at hu
    · exact h.tok _ _ hk hu
  · intro k a hk
    rcases append_get hk with ⟨-, hu⟩ | ⟨-, hk⟩
    · subst hu; rcases ht with ht | ⟨a, ht⟩ <;> cases ht
    · exact h.snd _ _ hk

theorem OKeep_run {evs : List OEv} {s : OState} (h : ORun evs s) : NoFailure evs → OKeep s := by
  refine ORun_induct (P := fun evs s => NoFailure evs → OKeep s) ?_ ?_ h
  · intro _; exact ⟨by simp, by simp, by simp⟩
  · intro evs s evs' s' hr ih st hn
    have hn' : NoFailure evs := fun k c ho ha =>
      hn k c (by unfold Own at *; exact List.mem_append_left _ ho) (List.mem_append_left _ ha)
    have hk := ih hn'
    cases st with
    | callPre a => exact OKeep_call hk _ (.inr ⟨a, rfl⟩)
    | call => exact OKeep_call hk _ (.inl rfl)
    | lockHave h0 hl ht => exact OKeep_set hk rfl (.inl rfl) (by simp) (fun _ => ht) (by simp)
    | lockFetch h0 hl ht => exact OKeep_set hk rfl (.inl rfl) (by simp) (by simp) (by simp)
    | useToken h0 =>
      exact OKeep_set hk rfl (.inl rfl) (by simp) (by simp) (by intro a ha; cases ha; exact hk.tok _ _ h0 (.inl rfl))
    | fetchFail h0 => exact OKeep_set hk rfl (.inl rfl) (by simp) (by simp) (by simp)
    | fetchOk ty at' h0 =>
      exact OKeep_set hk rfl (.inr (tokenOf_ne _ _)) (by simp) (fun _ => tokenOf_ne _ _) (by simp)
    | useStored h0 =>
      exact OKeep_set hk rfl (.inl rfl) (by simp) (by simp) (by intro a ha; cases ha; exact hk.tok _ _ h0 (.inr rfl))
    | send h0 => exact OKeep_set hk rfl (.inl rfl) (by simp) (by simp) (by simp)
    | answer st h0 hs => exact OKeep_set hk rfl (.inl rfl) (by simp) (by simp) (by simp)
    | @refused i c h0 hs =>
      have ho := ((OInv_run hr).own _ _ h0 rfl).1
      have := hn i c (by unfold Own at *; exact List.mem_append_left _ ho) (by simp)
      rw [(is2xx_iff c).2 this] at hs; cases hs
    | clear h0 => exact absurd h0 (hk.clear _)

end LogCache
