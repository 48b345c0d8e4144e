import Verif.Model.Consts
/-! Constant evaluation for proofs. -/
namespace Mixnet
theorem c_KX_PUBLIC_SIZE : KX_PUBLIC_SIZE = 32 := rfl
theorem c_MAC_SIZE : MAC_SIZE = 16 := rfl
theorem c_MAX_HOPS : MAX_HOPS = 6 := rfl
theorem c_RAW_MIXNODE_INDEX_SIZE : RAW_MIXNODE_INDEX_SIZE = 2 := rfl
theorem c_MAX_MIXNODE_INDEX : MAX_MIXNODE_INDEX = 65279 := rfl
theorem c_RAW_ACTION_SIZE : RAW_ACTION_SIZE = 2 := rfl
theorem c_PEER_ID_SIZE : PEER_ID_SIZE = 32 := rfl
theorem c_SURB_COVER_ID_SIZE : SURB_COVER_ID_SIZE = 16 := rfl
theorem c_SURB_ID_SIZE : SURB_ID_SIZE = 16 := rfl
theorem c_COVER_ID_SIZE : COVER_ID_SIZE = 16 := rfl
theorem c_PAYLOAD_DATA_SIZE : PAYLOAD_DATA_SIZE = 2048 := rfl
theorem c_PAYLOAD_TAG_SIZE : PAYLOAD_TAG_SIZE = 16 := rfl
theorem c_SHARED_SECRET_SIZE : SHARED_SECRET_SIZE = 32 := rfl
theorem c_MESSAGE_ID_SIZE : MESSAGE_ID_SIZE = 16 := rfl
theorem c_FRAGMENT_INDEX_SIZE : FRAGMENT_INDEX_SIZE = 2 := rfl
theorem c_FRAGMENT_INDEX_MAX : FRAGMENT_INDEX_MAX = 65535 := rfl
theorem c_FRAGMENT_DATA_SIZE_SIZE : FRAGMENT_DATA_SIZE_SIZE = 2 := rfl
theorem c_FRAGMENT_NUM_SURBS_SIZE : FRAGMENT_NUM_SURBS_SIZE = 1 := rfl
theorem c_MAC_KEY_SIZE : MAC_KEY_SIZE = 16 := rfl
theorem c_ACTIONS_ENCRYPTION_KEY_SIZE : ACTIONS_ENCRYPTION_KEY_SIZE = 32 := rfl
theorem c_DELAY_SEED_SIZE : DELAY_SEED_SIZE = 16 := rfl
theorem c_SMALL_DERIVED_SECRETS_SIZE : SMALL_DERIVED_SECRETS_SIZE = 64 := rfl
theorem c_PAYLOAD_ENCRYPTION_KEY_SIZE : PAYLOAD_ENCRYPTION_KEY_SIZE = 192 := rfl
theorem c_RAW_ACTION_FORWARD_TO_PEER_ID : RAW_ACTION_FORWARD_TO_PEER_ID = 65280 := rfl
theorem c_RAW_ACTION_DELIVER_REQUEST : RAW_ACTION_DELIVER_REQUEST = 65281 := rfl
theorem c_RAW_ACTION_DELIVER_REPLY : RAW_ACTION_DELIVER_REPLY = 65282 := rfl
theorem c_RAW_ACTION_DELIVER_COVER : RAW_ACTION_DELIVER_COVER = 65283 := rfl
theorem c_RAW_ACTION_DELIVER_COVER_WITH_ID : RAW_ACTION_DELIVER_COVER_WITH_ID = 65284 := rfl
theorem c_ACTIONS_SIZE : ACTIONS_SIZE = 140 := rfl
theorem c_MAX_ACTIONS_PAD_SIZE : MAX_ACTIONS_PAD_SIZE = 50 := rfl
theorem c_HEADER_SIZE : HEADER_SIZE = 188 := rfl
theorem c_PAYLOAD_SIZE : PAYLOAD_SIZE = 2064 := rfl
theorem c_PACKET_SIZE : PACKET_SIZE = 2252 := rfl
theorem c_SURB_SIZE : SURB_SIZE = 222 := rfl
theorem c_FRAGMENT_HEADER_SIZE : FRAGMENT_HEADER_SIZE = 23 := rfl
theorem c_FRAGMENT_PAYLOAD_SIZE : FRAGMENT_PAYLOAD_SIZE = 2025 := rfl
theorem c_FRAGMENT_SIZE : FRAGMENT_SIZE = 2048 := rfl
theorem c_MAX_SURBS_PER_FRAGMENT : MAX_SURBS_PER_FRAGMENT = 9 := rfl
theorem c_USIZE_MAX : USIZE_MAX = 18446744073709551615 := rfl

/-- `csimp at h ⊢`: replace the named sizes by numbers. -/
macro "csimp" loc:(Lean.Parser.Tactic.location)? : tactic =>
  `(tactic| simp only [
    c_KX_PUBLIC_SIZE, c_MAC_SIZE, c_MAX_HOPS, c_RAW_MIXNODE_INDEX_SIZE, c_MAX_MIXNODE_INDEX,
    c_RAW_ACTION_SIZE, c_PEER_ID_SIZE, c_SURB_COVER_ID_SIZE, c_SURB_ID_SIZE,
    c_COVER_ID_SIZE, c_PAYLOAD_DATA_SIZE, c_PAYLOAD_TAG_SIZE, c_SHARED_SECRET_SIZE,
    c_MESSAGE_ID_SIZE, c_FRAGMENT_INDEX_SIZE, c_FRAGMENT_INDEX_MAX,
    c_FRAGMENT_DATA_SIZE_SIZE, c_FRAGMENT_NUM_SURBS_SIZE, c_MAC_KEY_SIZE,
    c_ACTIONS_ENCRYPTION_KEY_SIZE, c_DELAY_SEED_SIZE, c_SMALL_DERIVED_SECRETS_SIZE,
    c_PAYLOAD_ENCRYPTION_KEY_SIZE, c_RAW_ACTION_FORWARD_TO_PEER_ID,
    c_RAW_ACTION_DELIVER_REQUEST, c_RAW_ACTION_DELIVER_REPLY, c_RAW_ACTION_DELIVER_COVER,
    c_RAW_ACTION_DELIVER_COVER_WITH_ID, c_ACTIONS_SIZE, c_MAX_ACTIONS_PAD_SIZE,
    c_HEADER_SIZE, c_PAYLOAD_SIZE, c_PACKET_SIZE, c_SURB_SIZE, c_FRAGMENT_HEADER_SIZE,
    c_FRAGMENT_PAYLOAD_SIZE, c_FRAGMENT_SIZE, c_MAX_SURBS_PER_FRAGMENT, c_USIZE_MAX] $[$loc]?)

/-- `omega` after replacing the named sizes everywhere. -/
macro "comega" : tactic => `(tactic| ((try csimp at *); omega))
end Mixnet
