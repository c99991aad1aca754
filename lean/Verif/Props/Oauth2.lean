import Verif.Spec.Oauth2
import Verif.Spec.Options
import Verif.Model.Oauth2
import Verif.Props.Url
import Verif.Props.Options
import Verif.Props.EnvelopeFormat
import Verif.Props.JsonGrammar

/-!
# Property theorems about the requests for a token (C159)
-/

namespace LogCache
open Spec

/-! ## Options -/

/-- The last user given counts, and the last HTTP client; the address, the client and its secret
are those of the call. -/
theorem C159_options (addr client secret : Str) (opts : List Oauth2Opt) :
    let c := newOauth2 addr client secret opts
    c.addr = addr ∧ c.client = client ∧ c.secret = secret ∧
    (c.username, c.password) = givenLast (fun | .user u p => some (u, p) | _ => none) opts ([], []) ∧
    c.http = givenLast (fun | .httpClient n => some (some n) | _ => none) opts none := by
  refine ⟨?_, ?_, ?_, ?_, ?_⟩
  · have := foldl_given Oauth2Opt.apply (fun _ => none) (fun c => c.addr) (fun c o => by cases o <;> rfl) opts
      { addr := addr, client := client, secret := secret }
    simpa [givenLast, newOauth2] using this
  · have := foldl_given Oauth2Opt.apply (fun _ => none) (fun c => c.client) (fun c o => by cases o <;> rfl) opts
      { addr := addr, client := client, secret := secret }
    simpa [givenLast, newOauth2] using this
  · have := foldl_given Oauth2Opt.apply (fun _ => none) (fun c => c.secret) (fun c o => by cases o <;> rfl) opts
      { addr := addr, client := client, secret := secret }
    simpa [givenLast, newOauth2] using this
  · exact foldl_given Oauth2Opt.apply _ (fun c => (c.username, c.password)) (fun c o => by cases o <;> rfl) opts
      { addr := addr, client := client, secret := secret }
  · exact foldl_given Oauth2Opt.apply _ (fun c => c.http) (fun c o => by cases o <;> rfl) opts
      { addr := addr, client := client, secret := secret }

/-! ## The form -/

theorem form_seen (q : Values) (hq : ProperParams q) : FormSays (encodeQuery (rawValues q)) q := by
  obtain ⟨q', h1, h2, -⟩ := seen_request [] q hq.1 hq.2
  refine ⟨q', ?_, h2⟩
  have hb : utf8Bytes ['/'] = 47 :: [] := by decide
  unfold seenRequest at h1
  rw [hb, readTarget_requestTarget] at h1
  revert h1
  generalize parseQuery (encodeQuery (rawValues q)) = r
  intro h1
  dsimp only at h1
  cases hr : textValues r with
  | none =>
    rw [hr] at h1
    cases h3 : utf8Text [47] <;> rw [h3] at h1 <;> cases h1
  | some r' =>
    rw [hr] at h1
    cases h3 : utf8Text [47] with
    | none => rw [h3] at h1; cases h1
    | some p =>
      rw [h3] at h1
      injection h1 with h1
      injection h1 with h1 h2
      rw [h2]

/-- With a user, the password grant is asked for: the form has the client's id and secret, the
grant and the user's name and password, whatever characters these have, and nothing else; there
is no other login. -/
theorem C159_user (addr client secret : Str) (opts : List Oauth2Opt)
    (h : (newOauth2 addr client secret opts).username ≠ []) :
    let c := newOauth2 addr client secret opts
    let r := tokenReq c
    r.method = "POST".toList ∧ r.path = "/oauth/token".toList ∧
    r.contentType = "application/x-www-form-urlencoded".toList ∧ r.authorization = none ∧
    FormSays r.body
      [("client_id".toList, [client]), ("client_secret".toList, [secret]), ("grant_type".toList, ["password".toList]),
       ("username".toList, [c.username]), ("password".toList, [c.password])] := by
  obtain ⟨-, h2, h3, -, -⟩ := C159_options addr client secret opts
  revert h h2 h3
  generalize newOauth2 addr client secret opts = c
  intro h h2 h3
  subst h2 h3
  have e : tokenReq c = userTokenReq c := if_neg h
  intro c r
  rw [show r = userTokenReq c from e]
  refine ⟨rfl, rfl, rfl, rfl, form_seen _ ?_⟩
  exact mapSet_proper (mapSet_proper (mapSet_proper (mapSet_proper (mapSet_proper ⟨by simp, by simp⟩ (by simp)) (by simp))
    (by simp)) (by simp)) (by simp)

/-! ## Logins in base64 -/

theorem base64Digit_inj {a b : Nat} (ha : a < 64) (hb : b < 64) (h : base64Digit a = base64Digit b) : a = b := by
  have key : ∀ a b : Fin 64, base64Digit a = base64Digit b → a = b := by decide +kernel
  exact congrArg Fin.val (key ⟨a, ha⟩ ⟨b, hb⟩ h)

theorem base64Digit_pad {a : Nat} (ha : a < 64) : base64Digit a ≠ '=' := by
  have key : ∀ a : Fin 64, base64Digit a ≠ '=' := by decide +kernel
  exact key ⟨a, ha⟩

theorem pads_inj {ds ds' : List Nat} {p p' : Nat} (hd : ∀ d ∈ ds, d < 64) (hd' : ∀ d ∈ ds', d < 64)
    (h : ds.map base64Digit ++ List.replicate p '=' = ds'.map base64Digit ++ List.replicate p' '=') : ds = ds' := by
  induction ds generalizing ds' with
  | nil =>
    cases ds' with
    | nil => rfl
    | cons d' t' =>
      cases p with
      | zero => simp at h
      | succ p =>
        rw [List.map_nil, List.nil_append, List.replicate_succ, List.map_cons, List.cons_append] at h
        injection h with h _
        exact absurd h.symm (base64Digit_pad (hd' d' List.mem_cons_self))
  | cons d t ih =>
    cases ds' with
    | nil =>
      cases p' with
      | zero => simp at h
      | succ p =>
        rw [List.map_nil, List.nil_append, List.replicate_succ, List.map_cons, List.cons_append] at h
        injection h with h _
        exact absurd h (base64Digit_pad (hd d List.mem_cons_self))
    | cons d' t' =>
      rw [List.map_cons, List.map_cons, List.cons_append, List.cons_append] at h
      injection h with h1 h2
      rw [base64Digit_inj (hd d List.mem_cons_self) (hd' d' List.mem_cons_self) h1,
        ih (fun x hx => hd x (List.mem_cons_of_mem _ hx)) (fun x hx => hd' x (List.mem_cons_of_mem _ hx)) h2]

theorem lowDigits8_length (n : Nat) : (lowDigits 8 n).length = 8 := by simp [lowDigits]

theorem lowDigits8_inj (a b : UInt8) (h : lowDigits 8 a.toNat = lowDigits 8 b.toNat) : a = b := by
  have key : ∀ a : Fin 256, (lowDigits 8 a.val).foldl (fun n b => 2 * n + b.toNat) 0 = a.val := by decide +kernel
  have h1 := key ⟨a.toNat, a.toNat_lt⟩
  have h2 := key ⟨b.toNat, b.toNat_lt⟩
  dsimp only at h1 h2
  rw [h, h2] at h1
  exact UInt8.toNat_inj.1 h1.symm

theorem bits_length (bs : List UInt8) : (bs.flatMap fun b => lowDigits 8 b.toNat).length = 8 * bs.length := by
  induction bs with
  | nil => rfl
  | cons b t ih => rw [List.flatMap_cons, List.length_append, ih, lowDigits8_length, List.length_cons]; omega

theorem bits_inj {bs bs' : List UInt8}
    (h : (bs.flatMap fun b => lowDigits 8 b.toNat) = bs'.flatMap fun b => lowDigits 8 b.toNat) : bs = bs' := by
  induction bs generalizing bs' with
  | nil =>
    have := bits_length bs'
    rw [← h] at this
    cases bs' with
    | nil => rfl
    | cons _ _ => simp at this
  | cons b t ih =>
    cases bs' with
    | nil =>
      have := bits_length (b :: t)
      rw [h] at this
      simp at this
    | cons b' t' =>
      rw [List.flatMap_cons, List.flatMap_cons] at h
      obtain ⟨h1, h2⟩ := List.append_inj h (by rw [lowDigits8_length, lowDigits8_length])
      rw [lowDigits8_inj _ _ h1, ih h2]

/-- A text is the base64 of one byte string only. -/
theorem isBase64_inj {bs bs' : List UInt8} {t : Str} (h : IsBase64 bs t) (h' : IsBase64 bs' t) : bs = bs' := by
  obtain ⟨ds, z, p, hd, hz, -, hb, ht, -⟩ := h
  obtain ⟨ds', z', p', hd', hz', -, hb', ht', -⟩ := h'
  have := pads_inj hd hd' (ht ▸ ht')
  subst this
  rw [hb] at hb'
  have hl := congrArg List.length hb'
  rw [List.length_append, List.length_append, bits_length, bits_length, List.length_replicate, List.length_replicate] at hl
  exact bits_inj (List.append_inj hb' (by rw [bits_length, bits_length]; omega)).1

theorem colon_inj {u u' p p' : Str} (hu : ':' ∉ u) (hu' : ':' ∉ u') (h : u ++ ':' :: p = u' ++ ':' :: p') :
    u = u' ∧ p = p' := by
  induction u generalizing u' with
  | nil =>
    cases u' with
    | nil => injection h with _ h; exact ⟨rfl, h⟩
    | cons c t => injection h with h _; subst h; simp at hu'
  | cons c t ih =>
    cases u' with
    | nil => injection h with h _; subst h; simp at hu
    | cons c' t' =>
      injection h with h1 h2
      obtain ⟨r1, r2⟩ := ih (fun hm => hu (List.mem_cons_of_mem _ hm)) (fun hm => hu' (List.mem_cons_of_mem _ hm)) h2
      exact ⟨by rw [h1, r1], r2⟩

/-- A server reads one user and one password in a header. -/
theorem C159_one_login {header u p u' p' : Str} (h : BasicLogin header u p) (h' : BasicLogin header u' p') :
    u = u' ∧ p = p' := by
  obtain ⟨t, e, hb, hu⟩ := h
  obtain ⟨t', e', hb', hu'⟩ := h'
  have : t = t' := List.append_cancel_left (e ▸ e')
  subst this
  exact colon_inj hu hu' (utf8Bytes_inj (isBase64_inj hb hb'))

/-- Without a user, the client grant is asked for: the client logs in with its id and its secret,
whatever characters these have (no colon in the id: RFC 7617), and the form has the id and the
grant and nothing else. Missing: ids with a colon, for which it is false (below). -/
theorem C159_client_partial (addr client secret : Str) (opts : List Oauth2Opt)
    (h : (newOauth2 addr client secret opts).username = []) (hcolon : ':' ∉ client) :
    let r := tokenReq (newOauth2 addr client secret opts)
    r.method = "POST".toList ∧ r.path = "/oauth/token".toList ∧
    r.contentType = "application/x-www-form-urlencoded".toList ∧
    (∃ header, r.authorization = some header ∧ BasicLogin header client secret) ∧
    FormSays r.body [("client_id".toList, [client]), ("grant_type".toList, ["client_credentials".toList])] := by
  obtain ⟨-, h2, h3, -, -⟩ := C159_options addr client secret opts
  revert h h2 h3
  generalize newOauth2 addr client secret opts = c
  intro h h2 h3
  subst h2 h3
  unfold tokenReq
  rw [if_pos h]
  refine ⟨rfl, rfl, rfl, ⟨_, rfl, _, rfl, b64Encode_spec _, hcolon⟩, form_seen _ ?_⟩
  exact mapSet_proper (mapSet_proper ⟨by simp, by simp⟩ (by simp)) (by simp)

/-- A client whose id has a colon logs in as another one: the one whose id is the part before
the first colon. -/
theorem C159_colon_false (addr before after secret : Str) (hb : ':' ∉ before) :
    ∃ header, (tokenReq (newOauth2 addr (before ++ ':' :: after) secret [])).authorization = some header ∧
      BasicLogin header before (after ++ ':' :: secret) ∧
      ¬ BasicLogin header (before ++ ':' :: after) secret := by
  have hl : BasicLogin ("Basic ".toList ++ b64Encode (utf8Bytes (before ++ ':' :: (after ++ ':' :: secret)))) before
      (after ++ ':' :: secret) := ⟨_, rfl, b64Encode_spec _, hb⟩
  refine ⟨_, ?_, hl, fun ⟨_, _, _, h⟩ => h (by simp)⟩
  show some ("Basic ".toList ++ b64Encode (utf8Bytes ((before ++ ':' :: after) ++ ':' :: secret))) = _
  rw [List.append_assoc, List.cons_append]

/-! ## The answer -/

section
attribute [local irreducible] decodeField

/-- An answer is taken for a token if its status is 200 and it is JSON with these two fields
(without a field: empty text). -/
theorem C159_answer (a : HttpAns Str) (ty acc : Str) :
    tokenAnswer a = some (ty, acc) ↔
      ∃ t, a = .resp 200 (some t) ∧ AnswerField "token_type".toList t ty ∧ AnswerField "access_token".toList t acc := by
  constructor
  · intro h
    cases a with
    | failed => cases h
    | resp status body =>
      unfold tokenAnswer at h
      dsimp only at h
      split at h
      · cases h
      · rename_i hs
        have hs : status = 200 := not_not.1 hs
        subst hs
        cases body with
        | none => cases h
        | some t =>
          rw [Option.bind_some] at h
          split at h
          · rename_i x y hx hy
            injection h with h
            injection h with h1 h2
            subst h1 h2
            exact ⟨t, rfl, (C106_field _ _ _).1 hx, (C106_field _ _ _).1 hy⟩
          · cases h
  · rintro ⟨t, rfl, h1, h2⟩
    rw [← C106_field] at h1 h2
    unfold tokenAnswer
    simp only [ne_eq, not_true_eq_false, if_false, Option.bind_some, h1, h2]

end

/-- With that answer, a request that waits for a token is sent with it: the two texts with a
space between them. -/
theorem C159_sent (i : Nat) (t ty acc : Str) (h1 : AnswerField "token_type".toList t ty)
    (h2 : AnswerField "access_token".toList t acc) (ans : Option Nat) :
    (doAlone i [] none (tokenAnswer (.resp 200 (some t))) ans).1 =
      [.called i none, .asked i, .fetched i (some (ty ++ ' ' :: acc)), .sent i (ty ++ ' ' :: acc), .answered i ans] := by
  rw [(C159_answer _ ty acc).2 ⟨t, rfl, h1, h2⟩]
  rfl

/-- With any other answer it is not sent. -/
theorem C159_refused (i : Nat) (a : HttpAns Str)
    (h : ∀ t ty acc, a = .resp 200 (some t) → AnswerField "token_type".toList t ty →
      ¬ AnswerField "access_token".toList t acc) (ans : Option Nat) :
    doAlone i [] none (tokenAnswer a) ans = ([.called i none, .asked i, .fetched i none], []) := by
  have : tokenAnswer a = none := by
    cases ht : tokenAnswer a with
    | none => rfl
    | some p =>
      obtain ⟨t, e, h1, h2⟩ := (C159_answer a p.1 p.2).1 ht
      exact absurd h2 (h t p.1 p.2 e h1)
  rw [this]
  rfl

/-- An answer without a token is not an error: the request is sent with a token that is just a
space, and so are the next ones. -/
theorem C159_empty_false :
    tokenAnswer (.resp 200 (some "{\"error\":\"x\"}".toList)) = some ([], []) ∧
    ∀ i ans, (doAlone i [] none (tokenAnswer (.resp 200 (some "{\"error\":\"x\"}".toList))) (some 200)) =
      ([.called i none, .asked i, .fetched i (some " ".toList), .sent i " ".toList, .answered i (some 200)], " ".toList) ∧
      (doAlone (i + 1) " ".toList none none ans).1 = [.called (i + 1) none, .sent (i + 1) " ".toList, .answered (i + 1) ans] := by
  have h : tokenAnswer (.resp 200 (some "{\"error\":\"x\"}".toList)) = some ([], []) := by decide +kernel
  exact ⟨h, fun i ans => ⟨by rw [h]; rfl, rfl⟩⟩

/-! ## Examples -/

/-- Two users: the second counts. -/
example : (newOauth2 "https://uaa".toList "cf".toList "s".toList
    [.user "a".toList "b".toList, .httpClient "h".toList, .user "é&=".toList "p w+%".toList]).username = "é&=".toList := rfl

/-- An empty name means that there is no user. -/
example : (newOauth2 "https://uaa".toList "a&b".toList "s:=".toList [.user "a".toList "b".toList, .user [] "x".toList]).username = [] ∧
    ':' ∉ "a&b".toList := by decide

example : ':' ∉ "a".toList := by decide

example : (tokenReq (newOauth2 "https://uaa".toList "id".toList "secret".toList [])).authorization =
    some "Basic aWQ6c2VjcmV0".toList := by decide +kernel

example : tokenAnswer (.resp 200 (some "{\"token_type\":\"bearer\",\"access_token\":\"x\"}".toList)) =
    some ("bearer".toList, "x".toList) := by decide +kernel

/-- A 201, no answer, and a text that is not JSON. -/
example : tokenAnswer (.resp 201 (some "{}".toList)) = none ∧ tokenAnswer .failed = none ∧
    tokenAnswer (.resp 200 (some "oops".toList)) = none := by decide +kernel

end LogCache
