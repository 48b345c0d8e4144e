import Verif.Model.Crypto
/-!
# `src/core/sphinx/{target,build,peel}.rs`, at byte level

`mut_arr_at`, `array_ref!`, `array_mut_ref!` and range indexing panic when out of range in the model as
in the code.
-/
namespace Mixnet

/-- `Target`, `/repo/src/core/sphinx/target.rs:64-68`. A `MixnodeIndex` is a number `≤ 0xfeff`
(`/repo/src/core/sphinx/target.rs:26-36`); that it is, is a hypothesis or a theorem. -/
inductive Target where
  | mixnodeIndex (i : Nat)
  | peerId (p : Bytes)
deriving Repr, DecidableEq

/-- `MixnodeIndex::try_from`, `/repo/src/core/sphinx/target.rs:38-56` -/
def mixnodeIndexTryFrom (i : Nat) : Option Nat := if i ≤ MAX_MIXNODE_INDEX then some i else none

/-- `&l[off..off + n]` / `array_ref![l, off, n]` -/
def arrayRef (site : String) (l : Bytes) (off n : Nat) : Res Bytes :=
  if off + n ≤ l.length then .ok (slice l off n) else panic site

/-- `*mut_arr_at(l, off) = xs` (`/repo/src/core/sphinx/build.rs:33-37`), `*array_mut_ref![l, off, n] = xs` -/
def arraySet (site : String) (l : Bytes) (off : Nat) (xs : Bytes) : Res Bytes :=
  if off + xs.length ≤ l.length then .ok (splice l off xs) else panic site

/-- `&l[off..]` -/
def sliceFrom (site : String) (l : Bytes) (off : Nat) : Res Bytes :=
  if off ≤ l.length then .ok (l.drop off) else panic site

/-- `&l[..off]` -/
def sliceTo (site : String) (l : Bytes) (off : Nat) : Res Bytes :=
  if off ≤ l.length then .ok (l.take off) else panic site

/-- `PacketKind`, `/repo/src/core/sphinx/build.rs:39-43` -/
inductive PacketKind where
  | request
  | reply (surbId : Bytes)
  | cover (coverId : Option Bytes)
deriving Repr, DecidableEq

/-- `Hop`, `/repo/src/core/sphinx/build.rs:73-78` -/
structure HopData where
  macKey : Bytes
  keystream : Bytes
  startOffset : Nat

/-- The local variables of `build_header` during the forward loop. `buf` is `mac_plus_actions`;
`actions` is `buf[MAC_SIZE..]`. -/
structure BuildState (C : Crypto) where
  buf : Bytes
  offset : Nat
  totalDelay : C.Delay
  hops : List HopData
  pad : Bytes

/-- One iteration of the forward loop, `/repo/src/core/sphinx/build.rs:84-118`. -/
def buildForwardStep (C : Crypto) (target : Target) (sec : SharedSecret) (s : BuildState C) :
    Res (BuildState C) := do
  let startOffset := s.offset
  let offset := s.offset + RAW_ACTION_SIZE
  let (buf, offset, rawAction) ←
    match target with
    | .mixnodeIndex i => (.ok (s.buf, offset, i) : Res (Bytes × Nat × Nat))
    | .peerId p => do
      let buf ← arraySet "mut_arr_at(actions, offset)" s.buf (MAC_SIZE + offset) p
      .ok (buf, offset + PEER_ID_SIZE, RAW_ACTION_FORWARD_TO_PEER_ID)
  let buf ← arraySet "mut_arr_at(actions, start_offset)" buf (MAC_SIZE + startOffset) (toLe16 rawAction)
  let offset := offset + MAC_SIZE
  let totalDelay := C.delayAdd s.totalDelay (C.delayExp (C.delaySeed sec))
  assertP "hops.push: ArrayVec is full" (decide (s.hops.length < MAX_HOPS - 1))
  let keystream := C.applyActionsEncryptionKeystream
    (List.replicate (ACTIONS_SIZE + MAX_ACTIONS_PAD_SIZE) 0) (C.actionsEncryptionKey sec)
  let padPrefix ← sliceTo "pad[..offset]" s.pad offset
  assertP "ACTIONS_SIZE - start_offset" (decide (startOffset ≤ ACTIONS_SIZE))
  let ks ← sliceFrom "keystream[ACTIONS_SIZE - start_offset..]" keystream (ACTIONS_SIZE - startOffset)
  .ok ⟨buf, offset, totalDelay, s.hops ++ [⟨C.macKey sec, keystream, startOffset⟩],
    applyKeystream padPrefix ks ++ s.pad.drop offset⟩

/-- The forward loop. -/
def buildForward (C : Crypto) : List (Target × SharedSecret) → BuildState C → Res (BuildState C)
  | [], s => .ok s
  | (t, sec) :: rest, s => do
    let s ← buildForwardStep C t sec s
    buildForward C rest s

/-- The last hop, `/repo/src/core/sphinx/build.rs:120-161`. -/
def buildLast (C : Crypto) (kind : PacketKind) (sec : SharedSecret) (rng : Rng) (s : BuildState C) :
    Res (BuildState C × Rng) := do
  let startOffset := s.offset
  let offset := s.offset + RAW_ACTION_SIZE
  let (buf, offset, rawAction) ←
    match kind with
    | .request => (.ok (s.buf, offset, RAW_ACTION_DELIVER_REQUEST) : Res (Bytes × Nat × Nat))
    | .reply surbId => do
      let buf ← arraySet "mut_arr_at(actions, offset)" s.buf (MAC_SIZE + offset) surbId
      .ok (buf, offset + SURB_ID_SIZE, RAW_ACTION_DELIVER_REPLY)
    | .cover none => .ok (s.buf, offset, RAW_ACTION_DELIVER_COVER)
    | .cover (some coverId) => do
      let buf ← arraySet "mut_arr_at(actions, offset)" s.buf (MAC_SIZE + offset) coverId
      .ok (buf, offset + COVER_ID_SIZE, RAW_ACTION_DELIVER_COVER_WITH_ID)
  let buf ← arraySet "mut_arr_at(actions, start_offset)" buf (MAC_SIZE + startOffset) (toLe16 rawAction)
  assertP "actions[offset..]" (decide (MAC_SIZE + offset ≤ buf.length))
  let (random, rng) := rng.fillBytes (buf.length - (MAC_SIZE + offset))
  let buf := buf.take (MAC_SIZE + offset) ++ random
  let enc := C.applyActionsEncryptionKeystream (buf.drop (MAC_SIZE + startOffset)) (C.actionsEncryptionKey sec)
  let buf := buf.take (MAC_SIZE + startOffset) ++ enc
  let pad ← sliceTo "pad[..start_offset]" s.pad startOffset
  let mac := C.computeMac enc pad (C.macKey sec)
  let buf ← arraySet "mut_arr_at(mac_plus_actions, start_offset)" buf startOffset mac
  .ok ({ s with buf := buf, offset := offset }, rng)

/-- One iteration of the backward loop, `/repo/src/core/sphinx/build.rs:164-178`, on
`(mac_plus_actions, pad)`. -/
def buildBackwardStep (C : Crypto) (hop : HopData) (s : Bytes × Bytes) : Res (Bytes × Bytes) := do
  let (buf, pad) := s
  let rest ← sliceFrom "mac_plus_actions[MAC_SIZE + start_offset..]" buf (MAC_SIZE + hop.startOffset)
  let enc := applyKeystream rest hop.keystream
  let buf := buf.take (MAC_SIZE + hop.startOffset) ++ enc
  let padPrefix ← sliceTo "pad[..start_offset]" pad hop.startOffset
  let ks ← sliceFrom "keystream[ACTIONS_SIZE - start_offset..]" hop.keystream (ACTIONS_SIZE - hop.startOffset)
  let padPrefix := applyKeystream padPrefix ks
  let pad := padPrefix ++ pad.drop hop.startOffset
  let buf ← arraySet "mut_arr_at(mac_plus_actions, start_offset)" buf hop.startOffset
    (C.computeMac enc padPrefix hop.macKey)
  .ok (buf, pad)

/-- The backward loop: `for hop in hops.iter().rev()`. -/
def buildBackward (C : Crypto) : List HopData → Bytes × Bytes → Res (Bytes × Bytes)
  | [], s => .ok s
  | hop :: rest, s => do
    let s ← buildBackward C rest s
    buildBackwardStep C hop s

/-- `build_header`, `/repo/src/core/sphinx/build.rs:45-181`. `header` is the old content of the header
buffer. Returns the new header, the shared secrets, the total delay. -/
def buildHeader (C : Crypto) (header : Bytes) (rng : Rng) (targets : List Target) (theirs : List KxPublic)
    (kind : PacketKind) : Res (Bytes × List SharedSecret × C.Delay × Rng) := do
  assertP "targets.len() + 1 == their_kx_publics.len()" (decide (targets.length + 1 = theirs.length))
  assertP "their_kx_publics.len() <= MAX_HOPS" (decide (theirs.length ≤ MAX_HOPS))
  let (kxPublic, secrets, rng) ← C.genKxPublicAndSharedSecrets rng theirs
  let s0 : BuildState C := ⟨header.drop KX_PUBLIC_SIZE, 0, C.delayZero, [],
    List.replicate (ACTIONS_SIZE - RAW_ACTION_SIZE) 0⟩
  let s ← buildForward C (targets.zip secrets) s0
  let lastSec ← expectSome "There is at least one hop" secrets.getLast?
  let (s, rng) ← buildLast C kind lastSec rng s
  let (buf, _) ← buildBackward C s.hops (s.buf, s.pad)
  .ok (kxPublic ++ buf, secrets, s.totalDelay, rng)

/-- `PAYLOAD_TAG`, `/repo/src/core/sphinx/packet.rs:88` -/
def PAYLOAD_TAG : Bytes := List.replicate PAYLOAD_TAG_SIZE 0

/-- `mut_payload_data`, `/repo/src/core/sphinx/build.rs:183-188`: the data part of a packet. -/
def payloadData (packet : Bytes) : Bytes := slice packet HEADER_SIZE PAYLOAD_DATA_SIZE

/-- `complete_request_packet`, `/repo/src/core/sphinx/build.rs:190-225` -/
def completeRequestPacket (C : Crypto) (packet : Bytes) (rng : Rng) (targets : List Target)
    (theirs : List KxPublic) : Res (Bytes × C.Delay × Rng) := do
  assertP "targets.len() + 1 == their_kx_publics.len()" (decide (targets.length + 1 = theirs.length))
  assertP "their_kx_publics.len() <= MAX_HOPS" (decide (theirs.length ≤ MAX_HOPS))
  let header := packet.take HEADER_SIZE
  let payload := packet.drop HEADER_SIZE
  let (header, secrets, totalDelay, rng) ← buildHeader C header rng targets theirs .request
  let payload ← arraySet "payload tag" payload PAYLOAD_DATA_SIZE PAYLOAD_TAG
  let payload := secrets.foldr (fun sec p => C.encryptPayload p (C.payloadEncryptionKey sec)) payload
  .ok (header ++ payload, totalDelay, rng)

/-- `build_surb`, `/repo/src/core/sphinx/build.rs:234-281`. Returns the SURB, the payload encryption keys
and the total forwarding delay. The callers pass an empty `payload_encryption_keys`. -/
def buildSurb (C : Crypto) (surb : Bytes) (rng : Rng) (firstMixnodeIndex : Nat) (targets : List Target)
    (theirs : List KxPublic) (id : Bytes) : Res (Bytes × List Bytes × C.Delay × Rng) := do
  assertP "targets.len() + 1 == their_kx_publics.len()" (decide (targets.length + 1 = theirs.length))
  assertP "their_kx_publics.len() <= MAX_HOPS" (decide (theirs.length ≤ MAX_HOPS))
  let header := slice surb RAW_MIXNODE_INDEX_SIZE HEADER_SIZE
  let (header, secrets, totalDelay, rng) ← buildHeader C header rng targets theirs (.reply id)
  let (sharedSecret, rng) := rng.fillBytes SHARED_SECRET_SIZE
  let keys := C.payloadEncryptionKey sharedSecret :: secrets.dropLast.map C.payloadEncryptionKey
  .ok (toLe16 firstMixnodeIndex ++ header ++ sharedSecret, keys, totalDelay, rng)

/-- `complete_reply_packet`, `/repo/src/core/sphinx/build.rs:283-305` -/
def completeReplyPacket (C : Crypto) (packet surb : Bytes) : Res (Bytes × Option Nat) := do
  let payload := packet.drop HEADER_SIZE
  let rawFirst := slice surb 0 RAW_MIXNODE_INDEX_SIZE
  let surbHeader := slice surb RAW_MIXNODE_INDEX_SIZE HEADER_SIZE
  let sharedSecret := slice surb (RAW_MIXNODE_INDEX_SIZE + HEADER_SIZE) SHARED_SECRET_SIZE
  let payload ← arraySet "payload tag" payload PAYLOAD_DATA_SIZE PAYLOAD_TAG
  let payload := C.decryptPayload payload (C.payloadEncryptionKey sharedSecret)
  .ok (surbHeader ++ payload, mixnodeIndexTryFrom (fromLe16 rawFirst))

/-- `build_cover_packet`, `/repo/src/core/sphinx/build.rs:307-338` -/
def buildCoverPacket (C : Crypto) (packet : Bytes) (rng : Rng) (targets : List Target)
    (theirs : List KxPublic) (id : Option Bytes) : Res (Bytes × C.Delay × Rng) := do
  assertP "targets.len() + 1 == their_kx_publics.len()" (decide (targets.length + 1 = theirs.length))
  assertP "their_kx_publics.len() <= MAX_HOPS" (decide (theirs.length ≤ MAX_HOPS))
  let header := packet.take HEADER_SIZE
  let (header, _, totalDelay, rng) ← buildHeader C header rng targets theirs (.cover id)
  let (payload, rng) := rng.fillBytes PAYLOAD_SIZE
  .ok (header ++ payload, totalDelay, rng)

/-! ### Peeling, `/repo/src/core/sphinx/peel.rs` -/

/-- `kx_public`, `/repo/src/core/sphinx/peel.rs:27-30` -/
def kxPublicOf (packet : Bytes) : KxPublic := slice packet 0 KX_PUBLIC_SIZE

/-- `Action`, `/repo/src/core/sphinx/peel.rs:32-44` -/
inductive Action (C : Crypto) where
  | forwardTo (target : Target) (delay : C.Delay)
  | deliverRequest
  | deliverReply (surbId : Bytes)
  | deliverCover (coverId : Option Bytes)

/-- `PeelErr`, `/repo/src/core/sphinx/peel.rs:46-54` -/
inductive PeelErr where
  | mac
  | action
  | payloadTag
deriving Repr, DecidableEq

/-- `check_payload_tag`, `/repo/src/core/sphinx/peel.rs:56-63` -/
def checkPayloadTag (tag : Bytes) : Except PeelErr Unit :=
  if tag = PAYLOAD_TAG then .ok () else .error .payloadTag

/-- `peel`, `/repo/src/core/sphinx/peel.rs:65-157`. `out` is the old content of the output buffer.
Returns the new content of the output buffer and the action or error. `decrypted_actions` is
`out[KX_PUBLIC_SIZE - RAW_ACTION_SIZE ..]`. -/
def peel (C : Crypto) (out packet : Bytes) (sec : SharedSecret) :
    Res (Bytes × Except PeelErr (Action C)) := do
  let kxPublic ← arrayRef "kx_public" packet 0 KX_PUBLIC_SIZE
  let mac ← arrayRef "mac" packet KX_PUBLIC_SIZE MAC_SIZE
  let actions ← arrayRef "actions" packet (KX_PUBLIC_SIZE + MAC_SIZE) ACTIONS_SIZE
  let payload ← arrayRef "payload" packet HEADER_SIZE PAYLOAD_SIZE
  if !C.macOk mac actions (C.macKey sec) then .ok (out, .error .mac)
  else do
    let dec := C.applyActionsEncryptionKeystream
      (actions ++ List.replicate MAX_ACTIONS_PAD_SIZE 0) (C.actionsEncryptionKey sec)
    let out ← arraySet "decrypted_actions" out (KX_PUBLIC_SIZE - RAW_ACTION_SIZE) dec
    let rawAction := fromLe16 (slice dec 0 RAW_ACTION_SIZE)
    if rawAction = RAW_ACTION_DELIVER_REQUEST then do
      let p := C.decryptPayload payload (C.payloadEncryptionKey sec)
      let out ← arraySet "out[..PAYLOAD_SIZE]" out 0 p
      let tag ← arrayRef "tag" p PAYLOAD_DATA_SIZE PAYLOAD_TAG_SIZE
      match checkPayloadTag tag with
      | .error e => .ok (out, .error e)
      | .ok () => .ok (out, .ok .deliverRequest)
    else if rawAction = RAW_ACTION_DELIVER_REPLY then do
      let surbId ← arrayRef "surb_id" dec RAW_ACTION_SIZE SURB_ID_SIZE
      let out ← arraySet "out[..PAYLOAD_SIZE]" out 0 payload
      .ok (out, .ok (.deliverReply surbId))
    else if rawAction = RAW_ACTION_DELIVER_COVER then .ok (out, .ok (.deliverCover none))
    else if rawAction = RAW_ACTION_DELIVER_COVER_WITH_ID then do
      let coverId ← arrayRef "cover_id" dec RAW_ACTION_SIZE COVER_ID_SIZE
      .ok (out, .ok (.deliverCover (some coverId)))
    else do
      -- forward
      let r ← (if rawAction = RAW_ACTION_FORWARD_TO_PEER_ID then do
          let peerId ← arrayRef "peer_id" dec RAW_ACTION_SIZE PEER_ID_SIZE
          -- copy_within
          let src ← arrayRef "copy_within" dec (RAW_ACTION_SIZE + PEER_ID_SIZE) (MAC_SIZE + ACTIONS_SIZE)
          let out ← arraySet "copy_within" out KX_PUBLIC_SIZE src
          .ok (out, some (Target.peerId peerId))
        else .ok (out, (mixnodeIndexTryFrom rawAction).map Target.mixnodeIndex) :
          Res (Bytes × Option Target))
      match r with
      | (out, none) => .ok (out, .error .action)
      | (out, some target) => do
        let delay := C.delayExp (C.delaySeed sec)
        let out ← arraySet "out[..KX_PUBLIC_SIZE]" out 0 (C.blindKxPublic kxPublic sec)
        let out ← arraySet "out_payload" out HEADER_SIZE (C.decryptPayload payload (C.payloadEncryptionKey sec))
        .ok (out, .ok (.forwardTo target delay))

/-- `decrypt_reply_payload`, `/repo/src/core/sphinx/peel.rs:159-170`. Returns the new payload too. -/
def decryptReplyPayload (C : Crypto) (payload : Bytes) (keys : List Bytes) :
    Res (Bytes × Except PeelErr Unit) := do
  let p := keys.foldr (fun key p => C.encryptPayload p key) payload
  let tag ← arrayRef "tag" p PAYLOAD_DATA_SIZE PAYLOAD_TAG_SIZE
  .ok (p, checkPayloadTag tag)

end Mixnet
