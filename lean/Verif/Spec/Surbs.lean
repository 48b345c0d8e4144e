import Verif.Spec.Posting
/-!
# Which SURBs a node should recognise

A specification in terms of what happened: SURBs created and used. Independent of how the keystore works.
-/
namespace Mixnet.Spec

/-- Something that happens to a SURB of a node. -/
inductive SurbEvent where
  /-- a SURB with this id was created for the request with this message id; `keys` open the reply -/
  | created (id : SurbId) (keys : List Bytes) (mid : MessageId)
  /-- a reply sent with this SURB was handled -/
  | used (id : SurbId)

/-- What is remembered about SURBs, in the order of their creation, after one more event: of the SURBs
created and not used, only the `capacity` newest ones are remembered. -/
def remember (capacity : Nat) (st : List (SurbId × SurbValue)) : SurbEvent → List (SurbId × SurbValue)
  | .created id keys mid => lastN capacity (st ++ [(id, ⟨keys, mid⟩)])
  | .used id => st.filter fun e => e.1 ≠ id

/-- After a sequence of events. -/
def remembered (capacity : Nat) (evs : List SurbEvent) (st : List (SurbId × SurbValue)) : List (SurbId × SurbValue) :=
  evs.foldl (remember capacity) st

/-- The number of SURBs created. -/
def creations : List SurbEvent → Nat
  | [] => 0
  | .created .. :: evs => creations evs + 1
  | .used _ :: evs => creations evs

end Mixnet.Spec
