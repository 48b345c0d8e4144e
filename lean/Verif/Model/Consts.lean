/-!
# Constants of the packet and fragment formats
-/
namespace Mixnet

/-! ### `/repo/src/core/sphinx/packet.rs:42-97` -/
abbrev KX_PUBLIC_SIZE : Nat := 32
abbrev MAC_SIZE : Nat := 16
abbrev MAX_HOPS : Nat := 6
abbrev RAW_MIXNODE_INDEX_SIZE : Nat := 2
abbrev MAX_MIXNODE_INDEX : Nat := 0xfeff
abbrev RAW_ACTION_SIZE : Nat := RAW_MIXNODE_INDEX_SIZE
abbrev RAW_ACTION_FORWARD_TO_PEER_ID : Nat := 0xff00
abbrev RAW_ACTION_DELIVER_REQUEST : Nat := 0xff01
abbrev RAW_ACTION_DELIVER_REPLY : Nat := 0xff02
abbrev RAW_ACTION_DELIVER_COVER : Nat := 0xff03
abbrev RAW_ACTION_DELIVER_COVER_WITH_ID : Nat := 0xff04
abbrev PEER_ID_SIZE : Nat := 32
abbrev MAX_ACTIONS_PAD_SIZE : Nat := RAW_ACTION_SIZE + PEER_ID_SIZE + MAC_SIZE
abbrev SURB_COVER_ID_SIZE : Nat := 16
abbrev SURB_ID_SIZE : Nat := SURB_COVER_ID_SIZE
abbrev COVER_ID_SIZE : Nat := SURB_COVER_ID_SIZE
abbrev ACTIONS_SIZE : Nat :=
  (MAX_HOPS * (RAW_ACTION_SIZE + MAC_SIZE)) + PEER_ID_SIZE + SURB_COVER_ID_SIZE - MAC_SIZE
abbrev PAYLOAD_DATA_SIZE : Nat := 2048
abbrev PAYLOAD_TAG_SIZE : Nat := 16
abbrev HEADER_SIZE : Nat := KX_PUBLIC_SIZE + MAC_SIZE + ACTIONS_SIZE
abbrev PAYLOAD_SIZE : Nat := PAYLOAD_DATA_SIZE + PAYLOAD_TAG_SIZE
abbrev PACKET_SIZE : Nat := HEADER_SIZE + PAYLOAD_SIZE

/-! ### `/repo/src/core/sphinx/crypto.rs:49-52,141-146,174`, `/repo/src/core/sphinx/delay.rs:32` -/
abbrev SHARED_SECRET_SIZE : Nat := 32
abbrev MAC_KEY_SIZE : Nat := 16
abbrev ACTIONS_ENCRYPTION_KEY_SIZE : Nat := 32
abbrev DELAY_SEED_SIZE : Nat := 16
abbrev SMALL_DERIVED_SECRETS_SIZE : Nat :=
  MAC_KEY_SIZE + ACTIONS_ENCRYPTION_KEY_SIZE + DELAY_SEED_SIZE
abbrev PAYLOAD_ENCRYPTION_KEY_SIZE : Nat := 192

/-! ### `/repo/src/core/sphinx/build.rs:228` -/
abbrev SURB_SIZE : Nat := RAW_MIXNODE_INDEX_SIZE + HEADER_SIZE + SHARED_SECRET_SIZE

/-! ### `/repo/src/core/fragment.rs:32-52` -/
abbrev MESSAGE_ID_SIZE : Nat := 16
abbrev FRAGMENT_INDEX_SIZE : Nat := 2
/-- `FragmentIndex::MAX` (`u16::MAX`). -/
abbrev FRAGMENT_INDEX_MAX : Nat := 65535
abbrev FRAGMENT_DATA_SIZE_SIZE : Nat := 2
abbrev FRAGMENT_NUM_SURBS_SIZE : Nat := 1
abbrev FRAGMENT_HEADER_SIZE : Nat :=
  MESSAGE_ID_SIZE + FRAGMENT_INDEX_SIZE + FRAGMENT_INDEX_SIZE + FRAGMENT_DATA_SIZE_SIZE +
    FRAGMENT_NUM_SURBS_SIZE
abbrev FRAGMENT_SIZE : Nat := PAYLOAD_DATA_SIZE
abbrev FRAGMENT_PAYLOAD_SIZE : Nat := FRAGMENT_SIZE - FRAGMENT_HEADER_SIZE
abbrev MAX_SURBS_PER_FRAGMENT : Nat := FRAGMENT_PAYLOAD_SIZE / SURB_SIZE

/-- `usize::MAX` on a 64-bit target. -/
abbrev USIZE_MAX : Nat := 2 ^ 64 - 1

end Mixnet
