import Verif.Spec.Door
import Verif.Proof.Client
import Verif.Proof.Promql
/-! # Lemmas about the access log and the routes -/
namespace LogCache
open Spec

/-! ## Escaping -/

theorem mem_escChar {c x : Char} (h : x ∈ escChar c) :
    x = c ∨ x ∈ "&#;0123456789ampltg".toList ∨ x = Char.ofNat 0xFFFD := by
  unfold escChar at h
  repeat' split at h
  all_goals first
    | exact .inr (.inl (List.all_eq_true.1 (by decide : List.all _ (fun y => "&#;0123456789ampltg".toList.contains y) = true) x h |> fun h => List.contains_iff_mem.1 h))
    | (right; right; exact List.mem_singleton.1 h)
    | (left; exact List.mem_singleton.1 h)

theorem escText_free {c : Char} {s : Str} (hc : c ∉ "&#;0123456789ampltg".toList)
    (hr : c ≠ Char.ofNat 0xFFFD) (h : c ∉ s) : c ∉ escText s := by
  intro hm
  obtain ⟨a, ha, hx⟩ := List.mem_flatMap.1 hm
  rcases mem_escChar hx with rfl | hx | hx
  · exact h ha
  · exact hc hx
  · exact hr hx

theorem escText_no_markup (s : Str) (c : Char) (hc : c ∈ "\"'+<>".toList) : c ∉ escText s := by
  intro hm
  obtain ⟨a, ha, hx⟩ := List.mem_flatMap.1 hm
  have : ∀ c ∈ "\"'+<>".toList, c ∉ "&#;0123456789ampltg".toList ∧ c ≠ Char.ofNat 0xFFFD ∧ escChar c ≠ [c] ∧ c ∉ escChar c := by
    decide
  obtain ⟨h1, h2, _, h3⟩ := this c hc
  rcases mem_escChar hx with rfl | hx | hx
  · exact h3 hx
  · exact h1 hx
  · exact h2 hx

theorem htmlDecode_other {c : Char} (s : Str) (h : c ≠ '&') : htmlDecode (c :: s) = c :: htmlDecode s := by
  rw [htmlDecode] <;> intros <;> simp_all

theorem decode_escape (s : Str) (h : ∀ c ∈ s, c.val ≠ 0) : htmlDecode (escText s) = s := by
  induction s with
  | nil => rfl
  | cons c s ih =>
    have ih := ih (fun c hc => h c (List.mem_cons_of_mem _ hc))
    have h0 := h c (List.mem_cons_self ..)
    show htmlDecode (escChar c ++ escText s) = c :: s
    unfold escChar
    repeat' split
    all_goals first
      | (rename_i e; subst e; show _ :: htmlDecode (escText s) = _; rw [ih])
      | skip
    · rename_i _ ha _ _ _ _
      rw [List.singleton_append, htmlDecode_other _ ha, ih]

/-! ## Lines -/

theorem formatInt_chars (n : Int) : ∀ c ∈ formatInt n, c ∈ "-0123456789".toList := by
  have hd : ∀ n, n < 10 → decDigit n ∈ "-0123456789".toList := by decide
  have hn : ∀ n, ∀ c ∈ dec n, c ∈ "-0123456789".toList := by
    intro n
    induction n using Nat.strongRecOn with
    | _ n ih =>
      rw [dec]
      split
      · rename_i h
        intro c hc
        rw [List.mem_singleton.1 hc]; exact hd _ h
      · intro c hc
        rcases List.mem_append.1 hc with hc | hc
        · exact ih _ (by omega) c hc
        · rw [List.mem_singleton.1 hc]; exact hd _ (Nat.mod_lt _ (by decide))
  rw [formatInt_eq]
  unfold decInt
  intro c hc
  split at hc
  · rcases List.mem_cons.1 hc with rfl | hc
    · decide
    · exact hn _ c hc
  · exact hn _ c hc

/-- The parts with the separator between them. -/
def joinBy (c : Char) : List Str → Str
  | [] => []
  | [x] => x
  | x :: y :: xs => x ++ c :: joinBy c (y :: xs)

theorem splitOn_joinBy {c : Char} (ws : List Str) (hne : ws ≠ []) (h : ∀ w ∈ ws, c ∉ w) :
    splitOn c (joinBy c ws) = ws := by
  induction ws with
  | nil => exact absurd rfl hne
  | cons w ws ih =>
    cases ws with
    | nil => exact splitOn_free (h w (List.mem_cons_self ..))
    | cons x xs =>
      rw [joinBy, splitOn_append, splitOn_free (h w (List.mem_cons_self ..)),
        ih (by simp) (fun w hw => h w (List.mem_cons_of_mem _ hw))]
      rfl

theorem joinBy_split (c : Char) (s : Str) : joinBy c (splitOn c s) = s := by
  induction s with
  | nil => rfl
  | cons a s ih =>
    rw [splitOn]
    obtain ⟨w, ws, hw⟩ := List.exists_cons_of_ne_nil (splitOn_ne_nil c s)
    by_cases ha : a = c
    · rw [if_pos ha, hw, joinBy, ← hw, ih, ha]; rfl
    · rw [if_neg ha, hw]
      rw [hw] at ih
      cases ws with
      | nil => exact congrArg (a :: ·) ih
      | cons x xs =>
        show a :: (w ++ c :: joinBy c (x :: xs)) = a :: s
        rw [← ih]; rfl

theorem joinPath_eq (ws : List Str) : joinPath ws = joinBy '/' ws := by
  induction ws with
  | nil => rfl
  | cons w ws ih =>
    cases ws with
    | nil => rfl
    | cons x xs => rw [joinPath, joinBy, ih]

theorem mem_joinBy {c x : Char} {ws : List Str} (h : x ∈ joinBy c ws) : x = c ∨ ∃ w ∈ ws, x ∈ w := by
  induction ws with
  | nil => cases h
  | cons w ws ih =>
    cases ws with
    | nil => exact .inr ⟨w, List.mem_cons_self .., h⟩
    | cons y ys =>
      rw [joinBy] at h
      rcases List.mem_append.1 h with h | h
      · exact .inr ⟨w, List.mem_cons_self .., h⟩
      · rcases List.mem_cons.1 h with h | h
        · exact .inl h
        · rcases ih h with h | ⟨v, hv, h⟩
          · exact .inl h
          · exact .inr ⟨v, List.mem_cons_of_mem _ hv, h⟩

/-- The extension part of a line. -/
def extensions (f : LogFields) : List Str :=
  ["rt=".toList ++ formatInt f.millis,
   "cs1Label=userAuthenticationMechanism".toList,
   "cs1=oauth-access-token".toList,
   "cs2Label=vcapRequestId".toList,
   "cs2=".toList ++ escText f.requestId,
   "request=".toList ++ escText f.path,
   "requestMethod=".toList ++ escText f.method,
   "src=".toList ++ escText f.srcHost,
   "spt=".toList ++ escText f.srcPort,
   "dst=".toList ++ escText f.dstHost,
   "dpt=".toList ++ escText f.dstPort]

/-- The eight parts of a line. -/
def lineParts (f : LogFields) : List Str :=
  ["CEF:0".toList, "cloud_foundry".toList, "log_cache".toList, "1.0".toList,
   escText f.method ++ ' ' :: escText f.path, escText f.method ++ ' ' :: escText f.path, "0".toList,
   joinBy ' ' (extensions f)]

theorem accessLine_parts (f : LogFields) : accessLine f = joinBy '|' (lineParts f) := by
  unfold accessLine lineParts extensions
  simp only [joinBy]
  generalize escText f.method = m
  generalize escText f.path = p
  generalize escText f.requestId = i
  generalize escText f.srcHost = a
  generalize escText f.srcPort = b
  generalize escText f.dstHost = c
  generalize escText f.dstPort = d
  generalize formatInt f.millis = n
  have e1 : "CEF:0|cloud_foundry|log_cache|1.0|".toList = "CEF:0".toList ++ '|' :: ("cloud_foundry".toList ++
      '|' :: ("log_cache".toList ++ '|' :: ("1.0".toList ++ ['|']))) := rfl
  have e2 : "|0|rt=".toList = '|' :: ("0".toList ++ '|' :: "rt=".toList) := rfl
  have e3 : " cs1Label=userAuthenticationMechanism cs1=oauth-access-token cs2Label=vcapRequestId cs2=".toList =
      ' ' :: ("cs1Label=userAuthenticationMechanism".toList ++ ' ' :: ("cs1=oauth-access-token".toList ++
      ' ' :: ("cs2Label=vcapRequestId".toList ++ ' ' :: "cs2=".toList))) := rfl
  have e4 : " request=".toList = ' ' :: "request=".toList := rfl
  have e5 : " requestMethod=".toList = ' ' :: "requestMethod=".toList := rfl
  have e6 : " src=".toList = ' ' :: "src=".toList := rfl
  have e7 : " spt=".toList = ' ' :: "spt=".toList := rfl
  have e8 : " dst=".toList = ' ' :: "dst=".toList := rfl
  have e9 : " dpt=".toList = ' ' :: "dpt=".toList := rfl
  rw [e1, e2, e3, e4, e5, e6, e7, e8, e9]
  generalize "CEF:0".toList = s1
  generalize "cloud_foundry".toList = s2
  generalize "log_cache".toList = s3
  generalize "1.0".toList = s4
  generalize "cs1Label=userAuthenticationMechanism".toList = s5
  simp only [List.append_assoc, List.cons_append, List.nil_append]

theorem accessLine_path (f : LogFields) : ∃ pre post, accessLine f = pre ++ escText f.path ++ post := by
  unfold accessLine
  generalize "CEF:0|cloud_foundry|log_cache|1.0|".toList = l1
  generalize "|0|rt=".toList = l2
  generalize " cs1Label=userAuthenticationMechanism cs1=oauth-access-token cs2Label=vcapRequestId cs2=".toList = l3
  refine ⟨l1 ++ escText f.method ++ [' '], ?_⟩
  simp only [List.append_assoc, List.cons_append, List.nil_append]
  exact ⟨_, rfl⟩

/-- The texts of an entry. -/
def fieldTexts (f : LogFields) : List Str :=
  [f.requestId, f.path, f.method, f.srcHost, f.srcPort, f.dstHost, f.dstPort]

/-- The characters of an entry that come from the template. -/
def plainChar (c : Char) : Bool := c.isAlphanum || "|:_.=- ".toList.contains c

theorem mem_accessLine {f : LogFields} {c : Char} (h : c ∈ accessLine f) :
    plainChar c = true ∨ ∃ s ∈ fieldTexts f, c ∈ escText s := by
  have l : ∀ {s : Str}, s.all plainChar = true → c ∈ s → plainChar c = true := fun hs hm =>
    List.all_eq_true.1 hs c hm
  have t : ∀ {s : Str}, s ∈ fieldTexts f → c ∈ escText s → plainChar c = true ∨ ∃ s ∈ fieldTexts f, c ∈ escText s :=
    fun hs hm => .inr ⟨_, hs, hm⟩
  have ap : ∀ {a s : Str}, a.all plainChar = true → s ∈ fieldTexts f → c ∈ a ++ escText s →
      plainChar c = true ∨ ∃ s ∈ fieldTexts f, c ∈ escText s := fun ha hs hm =>
    (List.mem_append.1 hm).elim (fun h => .inl (l ha h)) (t hs)
  have hwhat : c ∈ escText f.method ++ ' ' :: escText f.path →
      plainChar c = true ∨ ∃ s ∈ fieldTexts f, c ∈ escText s := by
    intro hm
    rcases List.mem_append.1 hm with h | h
    · exact t (by simp [fieldTexts]) h
    · rcases List.mem_cons.1 h with h | h
      · rw [h]; exact .inl (by decide)
      · exact t (by simp [fieldTexts]) h
  rw [accessLine_parts] at h
  rcases mem_joinBy h with h | ⟨w, hw, hx⟩
  · rw [h]; exact .inl (by decide)
  · simp only [lineParts, List.mem_cons, List.not_mem_nil, or_false] at hw
    rcases hw with rfl | rfl | rfl | rfl | rfl | rfl | rfl | rfl
    · exact .inl (l (by decide) hx)
    · exact .inl (l (by decide) hx)
    · exact .inl (l (by decide) hx)
    · exact .inl (l (by decide) hx)
    · exact hwhat hx
    · exact hwhat hx
    · exact .inl (l (by decide) hx)
    · rcases mem_joinBy hx with h | ⟨v, hv, hy⟩
      · rw [h]; exact .inl (by decide)
      · simp only [extensions, List.mem_cons, List.not_mem_nil, or_false] at hv
        rcases hv with rfl | rfl | rfl | rfl | rfl | rfl | rfl | rfl | rfl | rfl | rfl
        · rcases List.mem_append.1 hy with h | h
          · exact .inl (l (by decide) h)
          · have : ∀ c ∈ "-0123456789".toList, plainChar c = true := by decide
            exact .inl (this c (formatInt_chars _ c h))
        · exact .inl (l (by decide) hy)
        · exact .inl (l (by decide) hy)
        · exact .inl (l (by decide) hy)
        · exact ap (by decide) (by simp [fieldTexts]) hy
        · exact ap (by decide) (by simp [fieldTexts]) hy
        · exact ap (by decide) (by simp [fieldTexts]) hy
        · exact ap (by decide) (by simp [fieldTexts]) hy
        · exact ap (by decide) (by simp [fieldTexts]) hy
        · exact ap (by decide) (by simp [fieldTexts]) hy
        · exact ap (by decide) (by simp [fieldTexts]) hy

theorem escText_same {s : Str} (h : ∀ c ∈ s, c ∉ "\"&'+<>".toList ∧ c.val ≠ 0) : escText s = s := by
  induction s with
  | nil => rfl
  | cons c s ih =>
    show escChar c ++ escText s = c :: s
    rw [ih (fun x hx => h x (List.mem_cons_of_mem _ hx))]
    obtain ⟨h1, h2⟩ := h c (List.mem_cons_self ..)
    have hc : ∀ x ∈ "\"&'+<>".toList, c ≠ x := fun x hx e => h1 (e ▸ hx)
    unfold escChar
    rw [if_neg (hc _ (by decide)), if_neg (hc _ (by decide)), if_neg (hc _ (by decide)), if_neg (hc _ (by decide)),
      if_neg (hc _ (by decide)), if_neg (hc _ (by decide)), if_neg h2]
    rfl

theorem plainChar_same {c : Char} (h : plainChar c = true) : c ∉ "\"&'+<>".toList ∧ c.val ≠ 0 := by
  constructor
  · intro hm
    have : ∀ c ∈ "\"&'+<>".toList, plainChar c = false := by decide
    rw [this c hm] at h; cases h
  · intro h0
    have : c = Char.ofNat 0 := Char.ext h0
    rw [this] at h; exact absurd h (by decide)

/-! ## Host and port -/

theorem lastColon_append (a : Str) {b : Str} (h : ':' ∉ b) : lastColon (a ++ ':' :: b) = some (a, b) := by
  have h0 : lastColon b = none := by
    induction b with
    | nil => rfl
    | cons c b ih =>
      rw [lastColon, ih (fun hm => h (List.mem_cons_of_mem _ hm))]
      exact if_neg (fun (e : c = ':') => h (by rw [← e]; exact List.mem_cons_self ..))
  induction a with
  | nil => rw [List.nil_append, lastColon, h0]; exact if_pos rfl
  | cons x a ih => rw [List.cons_append, lastColon, ih]

theorem lastColon_none {b : Str} (h : ':' ∉ b) : lastColon b = none := by
  induction b with
  | nil => rfl
  | cons c b ih =>
    rw [lastColon, ih (fun hm => h (List.mem_cons_of_mem _ hm))]
    exact if_neg (fun (e : c = ':') => h (by rw [← e]; exact List.mem_cons_self ..))

theorem lastColon_some {s a b : Str} (h : lastColon s = some (a, b)) : s = a ++ ':' :: b ∧ ':' ∉ b := by
  by_cases hm : ':' ∈ s
  · obtain ⟨x, y, hs, hy⟩ : ∃ x y, s = x ++ ':' :: y ∧ ':' ∉ y := by
      clear h
      induction s with
      | nil => cases hm
      | cons c s ih =>
        by_cases hc : ':' ∈ s
        · obtain ⟨x, y, rfl, hy⟩ := ih hc
          exact ⟨c :: x, y, rfl, hy⟩
        · rcases List.mem_cons.1 hm with rfl | hm
          · exact ⟨[], s, rfl, hc⟩
          · exact absurd hm hc
    rw [hs, lastColon_append x hy] at h
    cases h
    exact ⟨hs, hy⟩
  · rw [lastColon_none hm] at h; cases h

theorem splitHostPort_plain {h p : Str} (hh : Plain h) (hp : Plain p) :
    splitHostPort (h ++ ':' :: p) = some (h, p) := by
  unfold splitHostPort
  rw [lastColon_append h hp.1]
  have hb : ¬ (':' ∈ h ∨ '[' ∈ h ++ ':' :: p ∨ ']' ∈ h ++ ':' :: p) := by
    have h1 : '[' ≠ ':' := by decide
    have h2 : ']' ≠ ':' := by decide
    simp only [List.mem_append, List.mem_cons]
    rintro (h' | (h' | h' | h') | (h' | h' | h'))
    · exact hh.1 h'
    · exact hh.2.1 h'
    · exact h1 h'
    · exact hp.2.1 h'
    · exact hh.2.2.1 h'
    · exact h2 h'
    · exact hp.2.2.1 h'
  generalize hs : h ++ ':' :: p = s at hb
  simp only
  split
  · exact absurd (.inr (.inl (List.mem_cons_self ..))) hb
  · exact if_neg hb

theorem takeWhile_stop {q : Char → Bool} {a b : Str} {c : Char} (ha : ∀ x ∈ a, q x = true) (hc : q c = false) :
    (a ++ c :: b).takeWhile q = a := by
  induction a with
  | nil => rw [List.nil_append, List.takeWhile_cons, hc]; rfl
  | cons x a ih =>
    rw [List.cons_append, List.takeWhile_cons, ha x (List.mem_cons_self ..), if_pos rfl,
      ih (fun y hy => ha y (List.mem_cons_of_mem _ hy))]

theorem splitHostPort_bracket {h p : Str} (h1 : '[' ∉ h) (h2 : ']' ∉ h) (hp : Plain p) :
    splitHostPort ('[' :: h ++ ']' :: ':' :: p) = some (h, p) := by
  unfold splitHostPort
  have e : '[' :: h ++ ']' :: ':' :: p = ('[' :: (h ++ [']'])) ++ ':' :: p := by simp
  rw [e, lastColon_append _ hp.1]
  have e2 : '[' :: (h ++ [']']) ++ ':' :: p = '[' :: (h ++ ']' :: ':' :: p) := by simp
  rw [e2]
  have ht : (h ++ ']' :: ':' :: p).takeWhile (· ≠ ']') = h :=
    takeWhile_stop (fun x hx => by
      have : x ≠ ']' := fun e => h2 (e ▸ hx)
      simp [this]) (by simp)
  show (if '[' :: (h ++ [']']) = '[' :: ((h ++ ']' :: ':' :: p).takeWhile (· ≠ ']') ++ [']']) then _ else _) = _
  rw [ht, if_pos rfl, if_neg]
  rintro (h' | h')
  · rcases List.mem_append.1 h' with h' | h'
    · exact h1 h'
    · exact hp.2.1 h'
  · exact hp.2.2.1 h'

theorem splitHostPort_chars {s h p : Str} (hs : splitHostPort s = some (h, p)) (c : Char) :
    (c ∈ h → c ∈ s) ∧ (c ∈ p → c ∈ s) := by
  unfold splitHostPort at hs
  cases hl : lastColon s with
  | none => rw [hl] at hs; cases hs
  | some fp =>
    obtain ⟨front, port⟩ := fp
    rw [hl] at hs
    obtain ⟨he, _⟩ := lastColon_some hl
    have hport : c ∈ port → c ∈ s := fun h => by
      rw [he]; exact List.mem_append_right _ (List.mem_cons_of_mem _ h)
    dsimp only at hs
    split at hs
    · split at hs
      · split at hs
        · cases hs
        · cases hs
          exact ⟨fun h => List.mem_cons_of_mem _ ((List.takeWhile_prefix _).subset h), hport⟩
      · cases hs
    · split at hs
      · cases hs
      · cases hs
        exact ⟨fun h => by rw [he]; exact List.mem_append_left _ h, hport⟩

theorem splitHostPort_colons {a b c : Str} (hb : '[' ∉ a ++ ':' :: (b ++ ':' :: c)) :
    splitHostPort (a ++ ':' :: (b ++ ':' :: c)) = none := by
  have hn : 2 ≤ (a ++ ':' :: (b ++ ':' :: c)).count ':' := by
    simp only [List.count_append, List.count_cons_self]; omega
  generalize a ++ ':' :: (b ++ ':' :: c) = s at hb hn
  unfold splitHostPort
  cases hl : lastColon s with
  | none => rfl
  | some fp =>
    obtain ⟨front, port⟩ := fp
    obtain ⟨he, hp⟩ := lastColon_some hl
    have hf : ':' ∈ front := by
      rw [he, List.count_append, List.count_cons_self, List.count_eq_zero.2 hp] at hn
      exact List.count_pos_iff.1 (by omega)
    dsimp only
    split
    · exact absurd (List.mem_cons_self ..) hb
    · exact if_pos (.inl hf)

/-- The address `extractRemoteInfo` splits, before the colon is added. -/
def remoteAddrOf (r : WebReq) : Str :=
  let addr := if ',' ∈ r.forwardedFor then r.forwardedFor.takeWhile (· ≠ ',') else r.forwardedFor
  if addr = [] then r.remoteAddr else addr

theorem remoteInfo_eq (r : WebReq) : remoteInfo r =
    (splitHostPort (if ':' ∈ remoteAddrOf r then remoteAddrOf r else remoteAddrOf r ++ [':'])).getD ([], []) := rfl

theorem remoteAddrOf_eq {r : WebReq} {addr : Str}
    (ha : (addr ≠ [] ∧ ',' ∉ addr ∧ (r.forwardedFor = addr ∨ ∃ rest, r.forwardedFor = addr ++ ',' :: rest)) ∨
      (r.forwardedFor = [] ∧ r.remoteAddr = addr)) : remoteAddrOf r = addr := by
  unfold remoteAddrOf
  dsimp only
  rcases ha with ⟨hne, hc, h | ⟨rest, h⟩⟩ | ⟨h, h'⟩
  · rw [h, if_neg hc, if_neg hne]
  · rw [h, if_pos (show ',' ∈ addr ++ ',' :: rest from List.mem_append_right _ (List.mem_cons_self ..))]
    have : (addr ++ ',' :: rest).takeWhile (· ≠ ',') = addr :=
      takeWhile_stop (fun x hx => by
        have : x ≠ ',' := fun e => hc (e ▸ hx)
        simp [this]) (by simp)
    rw [this, if_neg hne]
  · rw [h, if_neg List.not_mem_nil, if_pos rfl, h']

theorem remoteInfo_of_host {r : WebReq} {addr : Str} {res : Str × Str}
    (ha : (addr ≠ [] ∧ ',' ∉ addr ∧ (r.forwardedFor = addr ∨ ∃ rest, r.forwardedFor = addr ++ ',' :: rest)) ∨
      (r.forwardedFor = [] ∧ r.remoteAddr = addr))
    (hc : ':' ∉ addr) (hs : splitHostPort (addr ++ ':' :: []) = some res) : remoteInfo r = res := by
  rw [remoteInfo_eq, remoteAddrOf_eq ha, if_neg hc, hs]; rfl

theorem remoteInfo_of_addr {r : WebReq} {addr : Str} {res : Str × Str}
    (ha : (addr ≠ [] ∧ ',' ∉ addr ∧ (r.forwardedFor = addr ∨ ∃ rest, r.forwardedFor = addr ++ ',' :: rest)) ∨
      (r.forwardedFor = [] ∧ r.remoteAddr = addr))
    (hc : ':' ∈ addr) (hs : splitHostPort addr = some res) : remoteInfo r = res := by
  rw [remoteInfo_eq, remoteAddrOf_eq ha, if_pos hc, hs]; rfl

theorem remoteInfo_chars (r : WebReq) (c : Char) (hne : c ≠ ':') :
    (c ∈ (remoteInfo r).1 → c ∈ r.forwardedFor ∨ c ∈ r.remoteAddr) ∧
    (c ∈ (remoteInfo r).2 → c ∈ r.forwardedFor ∨ c ∈ r.remoteAddr) := by
  have h0 : c ∈ remoteAddrOf r → c ∈ r.forwardedFor ∨ c ∈ r.remoteAddr := by
    unfold remoteAddrOf
    dsimp only
    intro h
    split at h
    · split at h
      · exact .inr h
      · exact .inl ((List.takeWhile_prefix _).subset h)
    · split at h
      · exact .inr h
      · exact .inl h
  have h1 : c ∈ (if ':' ∈ remoteAddrOf r then remoteAddrOf r else remoteAddrOf r ++ [':']) →
      c ∈ r.forwardedFor ∨ c ∈ r.remoteAddr := by
    intro h
    split at h
    · exact h0 h
    · rcases List.mem_append.1 h with h | h
      · exact h0 h
      · exact absurd (List.mem_singleton.1 h) hne
  rw [remoteInfo_eq]
  cases hs : splitHostPort (if ':' ∈ remoteAddrOf r then remoteAddrOf r else remoteAddrOf r ++ [':']) with
  | none => exact ⟨nofun, nofun⟩
  | some hp =>
    obtain ⟨h, p⟩ := hp
    have := splitHostPort_chars hs c
    exact ⟨fun hm => h1 (this.1 hm), fun hm => h1 (this.2 hm)⟩

/-! ## Routes -/

theorem afterPrefix_some {pre s t : Str} (h : afterPrefix pre s = some t) : s = pre ++ t := by
  unfold afterPrefix at h
  split at h
  · rename_i hp
    cases h
    conv => lhs; rw [← List.take_append_drop pre.length s, hp]
  · cases h

theorem afterPrefix_append (pre t : Str) : afterPrefix pre (pre ++ t) = some t := by
  unfold afterPrefix
  rw [List.take_left, if_pos rfl, List.drop_left]

theorem proxyRoute_read {p id : Str} (h : proxyRoute p = .read id) :
    p = "/api/v1/read/".toList ++ id ∧ '\n' ∉ id := by
  unfold proxyRoute at h
  by_cases hc : cleanPath p ≠ p
  · rw [if_pos hc] at h; cases h
  · rw [if_neg hc] at h
    cases ha : afterPrefix "/api/v1/read/".toList p with
    | none =>
      rw [ha] at h
      dsimp only at h
      repeat' split at h
      all_goals cases h
    | some t =>
      rw [ha] at h
      dsimp only at h
      split at h
      · cases h
      · rename_i hn
        cases h
        exact ⟨afterPrefix_some ha, hn⟩

theorem proxyRoute_query {p : Str} (h : proxyRoute p = .query) :
    p = "/api/v1/query".toList ∨ p = "/api/v1/query_range".toList := by
  unfold proxyRoute at h
  by_cases hc : cleanPath p ≠ p
  · rw [if_pos hc] at h; cases h
  · rw [if_neg hc] at h
    cases ha : afterPrefix "/api/v1/read/".toList p with
    | none =>
      rw [ha] at h
      dsimp only at h
      split at h
      · assumption
      · repeat' split at h
        all_goals cases h
    | some t =>
      rw [ha] at h
      dsimp only at h
      split at h <;> cases h

theorem proxyRoute_info {p : Str} (h : proxyRoute p = .info) : p = "/api/v1/info".toList := by
  unfold proxyRoute at h
  by_cases hc : cleanPath p ≠ p
  · rw [if_pos hc] at h; cases h
  · rw [if_neg hc] at h
    cases ha : afterPrefix "/api/v1/read/".toList p with
    | none =>
      rw [ha] at h
      dsimp only at h
      split at h
      · cases h
      · split at h
        · cases h
        · split at h
          · assumption
          · cases h
    | some t =>
      rw [ha] at h
      dsimp only at h
      split at h <;> cases h

theorem split_readPath (id : Str) : splitOn '/' ("api/v1/read/".toList ++ id) =
    "api".toList :: "v1".toList :: "read".toList :: splitOn '/' id := by
  have e : "api/v1/read/".toList ++ id =
      "api".toList ++ '/' :: ("v1".toList ++ '/' :: ("read".toList ++ '/' :: id)) := rfl
  rw [e, splitOn_append, splitOn_append, splitOn_append]
  rfl

theorem joinBy_last (c : Char) (init : List Str) (w v : Str) :
    joinBy c (init ++ [w ++ v]) = joinBy c (init ++ [w]) ++ v := by
  induction init with
  | nil => rfl
  | cons x xs ih =>
    cases xs with
    | nil => show x ++ c :: (w ++ v) = (x ++ c :: w) ++ v; simp
    | cons y ys =>
      show x ++ c :: joinBy c (y :: ys ++ [w ++ v]) = (x ++ c :: joinBy c (y :: ys ++ [w])) ++ v
      rw [ih]; simp

theorem dropVerb_read {pre comps : List Str} {id : Str} (h : dropVerb (pre ++ splitOn '/' id) = some comps) :
    ∃ rest, comps = pre ++ rest ∧ (id = joinPath rest ∨ id = joinPath rest ++ [':']) := by
  obtain ⟨init, last, hs⟩ : ∃ init last, splitOn '/' id = init ++ [last] := by
    rcases List.eq_nil_or_concat (splitOn '/' id) with h0 | ⟨i, l, hl⟩
    · exact absurd h0 (splitOn_ne_nil _ _)
    · exact ⟨i, l, by rw [hl, List.concat_eq_append]⟩
  have hj := joinBy_split '/' id
  rw [hs] at hj h
  unfold dropVerb at h
  rw [← List.append_assoc, List.getLast?_concat] at h
  dsimp only at h
  cases hl : lastColon last with
  | none =>
    rw [hl] at h
    cases h
    exact ⟨init ++ [last], by simp, .inl (by rw [joinPath_eq, hj])⟩
  | some fv =>
    obtain ⟨front, verb⟩ := fv
    rw [hl] at h
    dsimp only at h
    split at h
    · cases h
    · rename_i hf
      cases h
      have hv : verb = [] := Classical.not_not.1 (fun e => hf (.inr e))
      obtain ⟨hl', _⟩ := lastColon_some hl
      rw [hv] at hl'
      refine ⟨init ++ [front], by rw [List.dropLast_concat]; simp, .inr ?_⟩
      rw [joinPath_eq, ← joinBy_last, ← hl', hj]

theorem gatewayReadCall_plain {id : Str} {q : Values} {b : Backend} (h : gatewayReadCall false id q = some b) :
    ∃ req, b = .read req ∧ gatewayRead id q = some req ∧ req.sourceId = id := by
  unfold gatewayReadCall at h
  rw [Option.map_eq_some_iff] at h
  obtain ⟨req, hr, rfl⟩ := h
  refine ⟨req, rfl, hr, ?_⟩
  unfold gatewayRead at hr
  split at hr
  · cases hr; rfl
  · cases hr

theorem gatewayCall_read {alias : Bool} {mo : Str → Bool} {r : WebReq} {id : Str} {b : Backend}
    (hp : r.path = "/api/v1/read/".toList ++ id) (h : gatewayCall alias mo r = some b) :
    ∃ id', (id = id' ∨ id = id' ++ [':']) ∧ gatewayReadCall alias id' r.params = some b := by
  unfold gatewayCall at h
  rw [hp] at h
  rw [if_neg (by
    intro e
    have := congrArg (fun s => s.take 13) e
    rw [show (13 : Nat) = "/api/v1/read/".toList.length from rfl] at this
    rw [List.take_left] at this
    exact absurd this (by decide))] at h
  split at h
  · cases h
  · have e : "/api/v1/read/".toList ++ id = '/' :: ("api/v1/read/".toList ++ id) := rfl
    rw [e] at h
    replace h : (dropVerb (splitOn '/' ("api/v1/read/".toList ++ id))).bind (gatewayMatch alias r.params) = some b := h
    rw [split_readPath, Option.bind_eq_some_iff] at h
    obtain ⟨comps, hd, hg⟩ := h
    obtain ⟨rest, rfl, hid⟩ := dropVerb_read (pre := ["api".toList, "v1".toList, "read".toList]) hd
    refine ⟨joinPath rest, hid, ?_⟩
    rw [← hg]
    show _ = gatewayMatch alias r.params ("api".toList :: "v1".toList :: "read".toList :: rest)
    rw [gatewayMatch]
    rw [if_pos ⟨rfl, rfl⟩, if_pos rfl]

theorem gatewayCall_query {alias : Bool} {mo : Str → Bool} {r : WebReq} {b : Backend}
    (hp : r.path = "/api/v1/query".toList ∨ r.path = "/api/v1/query_range".toList)
    (h : gatewayCall alias mo r = some b) :
    b = .instant ((r.params.first "query".toList).getD []) ∨ b = .range ((r.params.first "query".toList).getD []) := by
  unfold gatewayCall at h
  rcases hp with hp | hp <;> rw [hp] at h <;> rw [if_neg (by decide)] at h <;> split at h
  · cases h
  · rw [show ("/api/v1/query".toList) = '/' :: "api/v1/query".toList from rfl] at h
    replace h : (dropVerb (splitOn '/' "api/v1/query".toList)).bind (gatewayMatch alias r.params) = some b := h
    rw [show dropVerb (splitOn '/' "api/v1/query".toList) = some ["api".toList, "v1".toList, "query".toList] by decide] at h
    left
    have : gatewayMatch alias r.params ["api".toList, "v1".toList, "query".toList] = some b := h
    rw [gatewayMatch] at this
    rw [if_pos ⟨rfl, rfl⟩, if_neg (by decide), if_neg (by simp), if_neg (by decide), if_pos rfl] at this
    exact (Option.some.inj this).symm
  · cases h
  · rw [show ("/api/v1/query_range".toList) = '/' :: "api/v1/query_range".toList from rfl] at h
    replace h : (dropVerb (splitOn '/' "api/v1/query_range".toList)).bind (gatewayMatch alias r.params) = some b := h
    rw [show dropVerb (splitOn '/' "api/v1/query_range".toList) =
      some ["api".toList, "v1".toList, "query_range".toList] by decide] at h
    right
    have : gatewayMatch alias r.params ["api".toList, "v1".toList, "query_range".toList] = some b := h
    rw [gatewayMatch] at this
    rw [if_pos ⟨rfl, rfl⟩, if_neg (by decide), if_neg (by simp), if_neg (by decide), if_neg (by decide),
      if_pos rfl] at this
    exact (Option.some.inj this).symm

theorem readPath_ne {id s : Str} {c : Char} (hs : s[8]? = some c := by rfl) (hc : c ≠ 'r' := by decide) :
    "/api/v1/read/".toList ++ id ≠ s := by
  intro e
  have h8 : ("/api/v1/read/".toList ++ id)[8]? = some 'r' := rfl
  rw [e, hs] at h8
  exact hc (Option.some.inj h8)

theorem gatewayCall_path {alias : Bool} {mo : Str → Bool} {r : WebReq} {id : Str}
    (hp : r.path = "/api/v1/read/".toList ++ id) (hm : mo r.method = true) :
    gatewayCall alias mo r = (dropVerb ("api".toList :: "v1".toList :: "read".toList :: splitOn '/' id)).bind
      (gatewayMatch alias r.params) := by
  unfold gatewayCall
  rw [hp, if_neg (readPath_ne), hm, if_neg (by decide), ← split_readPath]
  rfl

theorem last_split {id : Str} : ∃ init last, splitOn '/' id = init ++ [last] := by
  rcases List.eq_nil_or_concat (splitOn '/' id) with h0 | ⟨i, l, hl⟩
  · exact absurd h0 (splitOn_ne_nil _ _)
  · exact ⟨i, l, by rw [hl, List.concat_eq_append]⟩

theorem mem_of_split {c : Char} {s w : Str} {x : Char} (h : w ∈ splitOn c s) (hx : x ∈ w) : x ∈ s := by
  induction s generalizing w with
  | nil => simp [splitOn] at h; subst h; cases hx
  | cons a s ih =>
    rw [splitOn] at h
    split at h
    · rcases List.mem_cons.1 h with rfl | h
      · cases hx
      · exact List.mem_cons_of_mem _ (ih h hx)
    · obtain ⟨v, vs, hv⟩ := List.exists_cons_of_ne_nil (splitOn_ne_nil c s)
      rw [hv] at h
      rcases List.mem_cons.1 h with rfl | h
      · rcases List.mem_cons.1 hx with rfl | hx
        · exact List.mem_cons_self ..
        · exact List.mem_cons_of_mem _ (ih (by rw [hv]; exact List.mem_cons_self ..) hx)
      · exact List.mem_cons_of_mem _ (ih (by rw [hv]; exact List.mem_cons_of_mem _ h) hx)

theorem gatewayCall_served {mo : Str → Bool} {r : WebReq} {id : Str}
    (hp : r.path = "/api/v1/read/".toList ++ id) (hc : ':' ∉ id) (hm : mo r.method = true) :
    gatewayCall false mo r = (gatewayRead id r.params).map .read := by
  rw [gatewayCall_path hp hm]
  obtain ⟨init, last, hs⟩ := @last_split id
  have hl : ':' ∉ last := fun h => hc (mem_of_split (by rw [hs]; simp) h)
  have hd : dropVerb ("api".toList :: "v1".toList :: "read".toList :: splitOn '/' id) =
      some ("api".toList :: "v1".toList :: "read".toList :: splitOn '/' id) := by
    unfold dropVerb
    rw [hs]
    have : ("api".toList :: "v1".toList :: "read".toList :: (init ++ [last])).getLast? = some last := by
      have e : "api".toList :: "v1".toList :: "read".toList :: (init ++ [last]) =
        ("api".toList :: "v1".toList :: "read".toList :: init) ++ [last] := rfl
      rw [e, List.getLast?_concat]
    rw [this]
    dsimp only
    rw [lastColon_none hl]
  rw [hd, Option.bind_some, gatewayMatch, if_pos ⟨rfl, rfl⟩, if_pos rfl, joinPath_eq, joinBy_split]
  rfl

theorem splitOn_last {c : Char} (a : Str) {b : Str} (hb : c ∉ b) :
    ∃ init last, splitOn c (a ++ b) = init ++ [last ++ b] := by
  induction a with
  | nil => exact ⟨[], [], by rw [List.nil_append, splitOn_free hb]; rfl⟩
  | cons x a ih =>
    obtain ⟨init, last, h⟩ := ih
    rw [List.cons_append, splitOn, h]
    split
    · exact ⟨[] :: init, last, rfl⟩
    · cases init with
      | nil => exact ⟨[], x :: last, rfl⟩
      | cons i is => exact ⟨(x :: i) :: is, last, rfl⟩

theorem gatewayCall_verb {alias : Bool} {mo : Str → Bool} {r : WebReq} {a b : Str}
    (hp : r.path = "/api/v1/read/".toList ++ (a ++ ':' :: b)) (hb : '/' ∉ b) (hb' : ':' ∉ b) (hne : b ≠ []) :
    gatewayCall alias mo r = none := by
  cases hm : mo r.method with
  | false =>
    unfold gatewayCall
    rw [hp, if_neg readPath_ne, hm]; rfl
  | true =>
    rw [gatewayCall_path hp hm]
    obtain ⟨init, last, hs⟩ := splitOn_last (c := '/') a (b := ':' :: b) (by
      intro h
      rcases List.mem_cons.1 h with h | h
      · exact absurd h (by decide)
      · exact hb h)
    have hd : dropVerb ("api".toList :: "v1".toList :: "read".toList :: splitOn '/' (a ++ ':' :: b)) = none := by
      unfold dropVerb
      rw [hs]
      have : ("api".toList :: "v1".toList :: "read".toList :: (init ++ [last ++ ':' :: b])).getLast? =
          some (last ++ ':' :: b) := by
        have e : "api".toList :: "v1".toList :: "read".toList :: (init ++ [last ++ ':' :: b]) =
          ("api".toList :: "v1".toList :: "read".toList :: init) ++ [last ++ ':' :: b] := rfl
        rw [e, List.getLast?_concat]
      rw [this]
      dsimp only
      rw [lastColon_append last hb']
      exact if_pos (.inr hne)
    rw [hd]; rfl

/-! ## Clean paths -/

theorem cleanSeg_keep {seg : Str} (acc : List Str) (h : seg ≠ [] ∧ seg ≠ ".".toList ∧ seg ≠ "..".toList) :
    cleanSeg acc seg = seg :: acc := by
  unfold cleanSeg
  rw [if_neg (fun e => e.elim h.1 h.2.1), if_neg h.2.2]

theorem clean_fold (segs acc : List Str)
    (h : ∀ seg ∈ segs, seg ≠ [] ∧ seg ≠ ".".toList ∧ seg ≠ "..".toList) :
    segs.foldl cleanSeg acc = segs.reverse ++ acc := by
  induction segs generalizing acc with
  | nil => rfl
  | cons s segs ih =>
    rw [List.foldl_cons, cleanSeg_keep acc (h s (List.mem_cons_self ..)),
      ih _ (fun x hx => h x (List.mem_cons_of_mem _ hx))]
    simp

/-- A segment stands between slashes. -/
theorem segment_infix {id seg : Str} (h : seg ∈ splitOn '/' id) : '/' :: (seg ++ ['/']) <:+: '/' :: (id ++ ['/']) := by
  have key : ∀ ws : List Str, seg ∈ ws → '/' :: (seg ++ ['/']) <:+: '/' :: (joinBy '/' ws ++ ['/']) := by
    intro ws
    induction ws with
    | nil => intro hs; cases hs
    | cons x ws ih =>
      intro hs
      cases ws with
      | nil => rw [List.mem_singleton] at hs; subst hs; exact List.infix_rfl
      | cons y ys =>
        have e : '/' :: (joinBy '/' (x :: y :: ys) ++ ['/']) = '/' :: x ++ '/' :: (joinBy '/' (y :: ys) ++ ['/']) := by
          simp [joinBy]
        rcases List.mem_cons.1 hs with rfl | hs
        · exact ⟨[], joinBy '/' (y :: ys) ++ ['/'], by rw [e]; simp⟩
        · rw [e]; exact (ih hs).trans (List.suffix_append _ _).isInfix
  have := key _ h
  rwa [joinBy_split] at this

/-- A segment that no router rewrites. -/
def GoodSeg (seg : Str) : Prop := seg ≠ [] ∧ seg ≠ ".".toList ∧ seg ≠ "..".toList

/-- An id of which no router rewrites a segment, in terms of the text. -/
def TightId (id : Str) : Prop := ∀ bad ∈ ["//", "/./", "/../"], ¬ bad.toList <:+: '/' :: (id ++ ['/'])

theorem splitOn_around (id : Str) : splitOn '/' ('/' :: (id ++ ['/'])) = [] :: (splitOn '/' id ++ [[]]) := by
  have e : '/' :: (id ++ ['/']) = [] ++ '/' :: (id ++ '/' :: []) := rfl
  rw [e, splitOn_append, splitOn_append]
  rfl

theorem tight_iff (id : Str) : TightId id ↔ ∀ seg ∈ splitOn '/' id, GoodSeg seg := by
  constructor
  · intro hid seg h
    have hi := segment_infix h
    refine ⟨?_, ?_, ?_⟩ <;> rintro rfl
    · exact hid "//" (by simp) hi
    · exact hid "/./" (by simp) hi
    · exact hid "/../" (by simp) hi
  · intro h bad hbad hi
    obtain ⟨m, hm, hfree, hgood⟩ : ∃ m, bad.toList = '/' :: (m ++ ['/']) ∧ '/' ∉ m ∧ ¬ GoodSeg m := by
      simp only [List.mem_cons, List.not_mem_nil, or_false] at hbad
      rcases hbad with rfl | rfl | rfl
      · exact ⟨[], rfl, by decide, fun g => g.1 rfl⟩
      · exact ⟨['.'], rfl, by decide, fun g => g.2.1 rfl⟩
      · exact ⟨['.', '.'], rfl, by decide, fun g => g.2.2 rfl⟩
    obtain ⟨a, b, hab⟩ := hi
    have hs := splitOn_around id
    have e : a ++ '/' :: (m ++ ['/']) ++ b = a ++ '/' :: (m ++ '/' :: b) := by simp
    rw [← hab, hm, e, splitOn_append, splitOn_append, splitOn_free hfree] at hs
    obtain ⟨x, xs, hx⟩ := List.exists_cons_of_ne_nil (splitOn_ne_nil '/' a)
    rw [hx, List.cons_append] at hs
    have hs2 := (List.cons.inj hs).2
    rcases List.eq_nil_or_concat (splitOn '/' b) with h0 | ⟨ys, y, hy⟩
    · exact splitOn_ne_nil _ _ h0
    · rw [hy, List.concat_eq_append, ← List.append_assoc, ← List.append_assoc] at hs2
      have := (List.append_inj_left' hs2 rfl)
      exact hgood (h m (by rw [← this]; simp))

theorem clean_iff (id : Str) : CleanId id ↔ id = [] ∨ (∃ x, id = x ++ ['/'] ∧ TightId x) ∨ TightId id := by
  rcases List.eq_nil_or_concat id with h0 | ⟨x, l, hl⟩
  · subst h0
    exact ⟨fun _ => .inl rfl, fun _ => by unfold CleanId; decide⟩
  rw [List.concat_eq_append] at hl
  have hne : id ≠ [] := by rw [hl]; simp
  by_cases hs : l = '/'
  · subst hs
    constructor
    · intro h
      exact .inr (.inl ⟨x, hl, fun bad hb hi => h.1 bad hb (by rw [hl]; exact hi)⟩)
    · rintro (h | ⟨y, hy, h⟩ | h)
      · exact absurd h hne
      · have : y = x := by rw [hl] at hy; exact (List.append_inj_left' hy rfl).symm
        subst this
        refine ⟨fun bad hb hi => h bad hb (by rw [hl] at hi; exact hi), ?_⟩
        intro bad hb hi
        rw [hl] at hi
        simp only [List.mem_cons, List.not_mem_nil, or_false] at hb
        obtain ⟨a, ha⟩ := hi
        obtain ⟨m, hm⟩ : ∃ m, bad.toList = m ++ ['.'] := by
          rcases hb with rfl | rfl
          · exact ⟨['/'], rfl⟩
          · exact ⟨['/', '.'], rfl⟩
        rw [hm, ← List.append_assoc, ← List.cons_append] at ha
        exact absurd (List.append_inj_right' ha rfl) (by decide)
      · exfalso
        refine h "//" (by simp) ?_
        exact ⟨'/' :: x, [], by rw [hl]; simp⟩
  · constructor
    · intro h
      refine .inr (.inr ?_)
      intro bad hb hi
      obtain ⟨a, b, hab⟩ := hi
      rcases List.eq_nil_or_concat b with h0 | ⟨b', y, hb'⟩
      · subst h0
        rw [List.append_nil] at hab
        obtain ⟨m, hm, hm'⟩ : ∃ m, bad.toList = m ++ ['/'] ∧ (m = ['/'] ∨ m = "/.".toList ∨ m = "/..".toList) := by
          simp only [List.mem_cons, List.not_mem_nil, or_false] at hb
          rcases hb with rfl | rfl | rfl
          · exact ⟨['/'], rfl, .inl rfl⟩
          · exact ⟨"/.".toList, rfl, .inr (.inl rfl)⟩
          · exact ⟨"/..".toList, rfl, .inr (.inr rfl)⟩
        rw [hm, ← List.append_assoc, ← List.cons_append] at hab
        have hab' := List.append_inj_left' hab rfl
        rcases hm' with rfl | rfl | rfl
        · rw [hl, ← List.cons_append] at hab'
          have := List.append_inj_right' hab' rfl
          exact hs (by injection this with h1; exact h1.symm)
        · exact h.2 "/." (by simp) ⟨a, hab'⟩
        · exact h.2 "/.." (by simp) ⟨a, hab'⟩
      · rw [hb', List.concat_eq_append, ← List.append_assoc, ← List.cons_append] at hab
        exact h.1 bad hb ⟨a, b', List.append_inj_left' hab rfl⟩
    · rintro (h | ⟨y, hy, _⟩ | h)
      · exact absurd h hne
      · rw [hl] at hy
        have := List.append_inj_right' hy rfl
        exact absurd (by injection this) hs
      · refine ⟨fun bad hb hi => h bad hb (hi.trans ⟨[], ['/'], by simp⟩), ?_⟩
        intro bad hb hi
        obtain ⟨a, ha⟩ := hi
        simp only [List.mem_cons, List.not_mem_nil, or_false] at hb
        rcases hb with rfl | rfl
        · exact h "/./" (by simp) ⟨a, [], by rw [List.append_nil, ← List.cons_append, ← ha]; simp⟩
        · exact h "/../" (by simp) ⟨a, [], by rw [List.append_nil, ← List.cons_append, ← ha]; simp⟩

theorem cleanSeg_good (segs acc : List Str) (h : ∀ seg ∈ acc, GoodSeg seg) :
    ∀ seg ∈ segs.foldl cleanSeg acc, GoodSeg seg := by
  induction segs generalizing acc with
  | nil => exact h
  | cons s segs ih =>
    rw [List.foldl_cons]
    apply ih
    unfold cleanSeg
    split
    · exact h
    · rename_i h1
      split
      · exact fun seg hs => h seg (List.mem_of_mem_tail hs)
      · rename_i h2
        intro seg hs
        rcases List.mem_cons.1 hs with rfl | hs
        · exact ⟨fun e => h1 (.inl e), fun e => h1 (.inr e), h2⟩
        · exact h seg hs

theorem splitOn_fold_free (segs acc : List Str) (h : ∀ seg ∈ acc, '/' ∉ seg) (h' : ∀ seg ∈ segs, '/' ∉ seg) :
    ∀ seg ∈ segs.foldl cleanSeg acc, '/' ∉ seg := by
  induction segs generalizing acc with
  | nil => exact h
  | cons s segs ih =>
    rw [List.foldl_cons]
    refine ih _ ?_ (fun x hx => h' x (List.mem_cons_of_mem _ hx))
    unfold cleanSeg
    split
    · exact h
    · split
      · exact fun seg hs => h seg (List.mem_of_mem_tail hs)
      · intro seg hs
        rcases List.mem_cons.1 hs with rfl | hs
        · exact h' _ (List.mem_cons_self ..)
        · exact h seg hs

/-- The paths of reads that routers leave alone. -/
theorem cleanPath_read (id : Str) :
    cleanPath ("/api/v1/read/".toList ++ id) = "/api/v1/read/".toList ++ id ↔ CleanId id := by
  have split_pre : ∀ i : Str, splitOn '/' ("/api/v1/read/".toList ++ i) =
      [] :: "api".toList :: "v1".toList :: "read".toList :: splitOn '/' i := by
    intro i
    have e : "/api/v1/read/".toList ++ i = [] ++ '/' :: ("api/v1/read/".toList ++ i) := rfl
    rw [e, splitOn_append, split_readPath]; rfl
  have hne : "/api/v1/read/".toList ++ id ≠ [] := nofun
  have hp : cleanPath ("/api/v1/read/".toList ++ id) =
      (let np := '/' :: joinPath ((splitOn '/' ("/api/v1/read/".toList ++ id)).foldl cleanSeg []).reverse
       if ("/api/v1/read/".toList ++ id).getLast? = some '/' ∧ np ≠ ['/'] then np ++ ['/'] else np) := by
    unfold cleanPath
    rw [if_neg hne]
    dsimp only
    rw [if_pos (show ("/api/v1/read/".toList ++ id).head? = some '/' from rfl)]
  have h0 : cleanSeg [] [] = [] := by decide
  have hlast : ∀ l x, id = x ++ [l] → ("/api/v1/read/".toList ++ id).getLast? = some l := by
    intro l x hx
    rw [hx, ← List.append_assoc, List.getLast?_concat]
  have htight : ∀ x, TightId x → (("api".toList :: "v1".toList :: "read".toList :: splitOn '/' x).foldl cleanSeg []) =
      ("api".toList :: "v1".toList :: "read".toList :: splitOn '/' x).reverse := by
    intro x hx
    rw [clean_fold, List.append_nil]
    intro seg hseg
    rcases List.mem_cons.1 hseg with rfl | hseg
    · decide
    · rcases List.mem_cons.1 hseg with rfl | hseg
      · decide
      · rcases List.mem_cons.1 hseg with rfl | hseg
        · decide
        · exact (tight_iff x).1 hx seg hseg
  have hj : ∀ x, '/' :: joinPath (("api".toList :: "v1".toList :: "read".toList :: splitOn '/' x)) =
      "/api/v1/read/".toList ++ x := by
    intro x
    rw [← split_readPath, joinPath_eq, joinBy_split]; rfl
  constructor
  · intro hfix
    rw [hp] at hfix
    dsimp only at hfix
    generalize hsegs : ((splitOn '/' ("/api/v1/read/".toList ++ id)).foldl cleanSeg []).reverse = segs at hfix
    have hgood : ∀ seg ∈ segs, GoodSeg seg := by
      intro seg hs
      rw [← hsegs, List.mem_reverse] at hs
      exact cleanSeg_good _ [] (fun _ h => by cases h) seg hs
    have hfree : ∀ seg ∈ segs, '/' ∉ seg := by
      intro seg hs
      rw [← hsegs, List.mem_reverse] at hs
      exact splitOn_fold_free _ [] (fun _ h => by cases h) (fun x hx => mem_splitOn_free hx) seg hs
    have hsne : segs ≠ [] := by
      rintro rfl
      split at hfix
      · rename_i hc; exact hc.2 rfl
      · have := congrArg List.length hfix
        simp [joinPath] at this
    have hsplit : splitOn '/' ('/' :: joinPath segs) = [] :: segs := by
      have e : '/' :: joinPath segs = [] ++ '/' :: joinBy '/' segs := by rw [joinPath_eq]; rfl
      rw [e, splitOn_append, splitOn_joinBy segs hsne hfree]; rfl
    rw [clean_iff]
    split at hfix
    · rename_i hc
      -- a slash at the end
      have h2 := congrArg (splitOn '/') hfix
      rw [split_pre] at h2
      have e : '/' :: joinPath segs ++ ['/'] = ('/' :: joinPath segs) ++ '/' :: [] := rfl
      rw [e, splitOn_append, hsplit] at h2
      rcases List.eq_nil_or_concat id with hid | ⟨x, l, hl⟩
      · exact .inl hid
      · rw [List.concat_eq_append] at hl
        rw [hlast l x hl] at hc
        have hl' : l = '/' := by injection hc.1
        subst hl'
        refine .inr (.inl ⟨x, hl, (tight_iff x).2 ?_⟩)
        rw [hl, splitOn_append] at h2
        have h3 : segs = "api".toList :: "v1".toList :: "read".toList :: splitOn '/' x := by
          have h4 : ([] :: segs) ++ splitOn '/' [] =
              ([] :: "api".toList :: "v1".toList :: "read".toList :: splitOn '/' x) ++ splitOn '/' [] := by
            rw [h2]; simp
          exact (List.cons.inj (List.append_cancel_right h4)).2
        intro seg hs
        exact hgood seg (by rw [h3]; simp [hs])
    · refine .inr (.inr ((tight_iff id).2 ?_))
      have h2 := congrArg (splitOn '/') hfix
      rw [split_pre, hsplit] at h2
      intro seg hs
      exact hgood seg (by rw [(List.cons.inj h2).2]; simp [hs])
  · intro h
    rw [clean_iff] at h
    rw [hp, split_pre, List.foldl_cons, h0]
    dsimp only
    rcases h with rfl | ⟨x, hx, ht⟩ | ht
    · decide +kernel
    · have e : splitOn '/' id = splitOn '/' x ++ [[]] := by rw [hx, splitOn_append]; rfl
      have e2 : ("api".toList :: "v1".toList :: "read".toList :: splitOn '/' id).foldl cleanSeg [] =
          ("api".toList :: "v1".toList :: "read".toList :: splitOn '/' x).reverse := by
        rw [e]
        have : "api".toList :: "v1".toList :: "read".toList :: (splitOn '/' x ++ [[]]) =
            ("api".toList :: "v1".toList :: "read".toList :: splitOn '/' x) ++ [[]] := rfl
        rw [this, List.foldl_append, htight x ht]
        rfl
      rw [e2, List.reverse_reverse, hj, hlast '/' x hx, if_pos ⟨rfl, nofun⟩, hx, List.append_assoc]
    · rw [htight id ht, List.reverse_reverse, hj, if_neg]
      rintro ⟨h1, _⟩
      rcases List.eq_nil_or_concat id with hid | ⟨x, l, hl⟩
      · exact ((tight_iff id).1 ht [] (by rw [hid]; exact List.mem_cons_self ..)).1 rfl
      · rw [List.concat_eq_append] at hl
        rw [hlast l x hl] at h1
        injection h1 with h1
        subst h1
        refine ((tight_iff id).1 ht [] ?_).1 rfl
        rw [hl, splitOn_append]
        exact List.mem_append_right _ (List.mem_cons_self ..)

theorem proxyRoute_clean {id : Str} (h : CleanId id) (hn : '\n' ∉ id) :
    proxyRoute ("/api/v1/read/".toList ++ id) = .read id := by
  unfold proxyRoute
  rw [if_neg (fun hc => hc ((cleanPath_read id).2 h)), afterPrefix_append]
  exact if_neg hn

end LogCache
