import Verif.Model.AuthConc

/-! # What the clients of UAA and CAPI promise when answers take time and overlap -/

namespace LogCache.Spec

/-- The key was published at some time from `t0` to `t1`. -/
def PublishedIn {κ : Type} (published : Int → List (Str × Option κ)) (kid : Str) (k : κ) (t0 t1 : Int) : Prop :=
  ∃ τ, t0 ≤ τ ∧ τ ≤ t1 ∧ (kid, some k) ∈ published τ

/-- Once a refresh that asked UAA at `tq` has ended well, only keys that were published
since `tq` are used. -/
def RefreshTakesEffect {κ : Type} (published : Int → List (Str × Option κ)) (evs : List (Int × UaaAct κ)) : Prop :=
  ∀ pre post now kid k i tq tf, evs = pre ++ (now, UaaAct.used kid k) :: post →
    (tq, UaaAct.asked i) ∈ pre → (tf, UaaAct.finished i) ∈ pre → PublishedIn published kid k tq now

/-- No key is used that has not been published for `d`. -/
def KeysAtMostOld {κ : Type} (published : Int → List (Str × Option κ)) (d : Int) (evs : List (Int × UaaAct κ)) :
    Prop :=
  ∀ now kid k, (now, UaaAct.used kid k) ∈ evs → PublishedIn published kid k (now - d) now

/-- The user with this token could read this source at some time after `t0`, up to `t1`. -/
def GrantedIn (rights : Str → Int → List Str) (tok sid : Str) (t0 t1 : Int) : Prop :=
  ∃ τ, t0 < τ ∧ τ ≤ t1 ∧ sid ∈ rights tok τ

/-- At the time `now` a request of this user for this source was let through. -/
def Admits (act : RightsAct) (tok sid : Str) : Prop :=
  act = .answered sid tok true ∨ ∃ c ids, act = .fetched c ids true ∧ c.token = tok ∧ c.sid = sid

/-- At the time `now` a request of this user for this source was refused. -/
def Denies (act : RightsAct) (tok sid : Str) : Prop :=
  act = .answered sid tok false ∨ ∃ c ids, act = .fetched c ids false ∧ c.token = tok ∧ c.sid = sid

/-- Nobody is let through later than `d` after the right was withdrawn. -/
def RightsAtMostOld (rights : Str → Int → List Str) (d : Int) (evs : List (Int × RightsAct)) : Prop :=
  ∀ now act tok sid, (now, act) ∈ evs → Admits act tok sid → GrantedIn rights tok sid (now - d) now

/-- After a refusal a request is let through only if the right was there since the refused
request came in. -/
def RefusalStands (rights : Str → Int → List Str) (evs : List (Int × RightsAct)) : Prop :=
  ∀ pre mid post t c ids now act tok sid,
    evs = pre ++ (t, RightsAct.fetched c ids false) :: mid ++ (now, act) :: post →
    c.token = tok → c.sid = sid → Admits act tok sid → GrantedIn rights tok sid (c.since - 1) now

end LogCache.Spec
