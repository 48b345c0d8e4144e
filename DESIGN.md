# Formal model of paritytech/mixnet in Lean 4

## 1. What is modelled

All of `src/` is modelled function by function, as total computable Lean functions, except what section 5
lists. Layout of `lean/Verif/` (namespace `Mixnet`):

| Lean | Rust |
|---|---|
| `Model/Prelude`, `Model/Consts` | panics (`Except Panic`), bytes, little-endian, XOR, slices, `LinkedHashMap`, random stream; sizes of `core/sphinx/packet.rs`, `core/fragment.rs` |
| `Model/Scattered` | `core/scattered.rs` |
| `Model/Fragment` | `core/fragment.rs` (splitting, SURB placement, reassembly) |
| `Model/Crypto` | `core/sphinx/{crypto,delay}.rs`, primitives abstract, laws in `CryptoLaws` |
| `Model/Sphinx` | `core/sphinx/{packet,target,build,peel}.rs`, byte level |
| `Model/ReplayFilter` | `core/replay_filter.rs` |
| `Model/PacketQueues` | `core/packet_queues.rs` |
| `Model/SurbKeystore` | `core/surb_keystore.rs` |
| `Model/Topology` | `core/topology.rs` |
| `Model/Sessions` | `core/{sessions,kx_pair}.rs` |
| `Model/RequestBuilder` | `core/{config,cover,request_builder}.rs` |
| `Model/Mixnet` | `core/mod.rs`: the node |
| `Model/Api` | the calls of `Mixnet` as one transition function `Node.step`, reachable states, histories |
| `Model/RequestManager` | `request_manager/{mod,config,post_queues}.rs` |
| `Model/ReplyManager` | `reply_manager.rs` |
| `Model/QueueDelay` | `estimate_authored_packet_queue_delay` of `core/mod.rs`: the formula over the reals |
| `Model/QueueDelayF64` | the same function in `f64` and `Duration` arithmetic, operation by operation |
| `Model/SendingF64` | `next_authored_packet_delay` and the choice of the session in `pop_next_authored_packet` of `core/mod.rs`, likewise |
| `Model/Overflow` | these, `estimate_rtt` and the deadlines again, with a panic wherever an `f64`, `Duration` or `Instant` overflows |
| `Model/Blake` | the parameters of every BLAKE2b call in `core/sphinx/crypto.rs` and `core/replay_filter.rs` |
| `Model/Curve25519`, `Model/Primitives`, `Model/RealCrypto` | the functions of the crates `curve25519-dalek`, `blake2`, `c2-chacha` and `lioness` that `core/sphinx/crypto.rs` calls, after their specifications (the crates are not in `/repo`), and `f64` rounding for `core/sphinx/delay.rs` |
| `Model/ToyCrypto` | no Rust: a toy instance of `CryptoLaws`, so that the laws are consistent and the examples compute |

`Spec/` has the small specifications the theorems are stated with, independent of the model's helpers:
`Fragment` (what it is to carry a message), `Sphinx` (`Travels`), `Wire` (the formats, byte by byte), `Curve` (the curve as
Mathlib's elliptic curve), `Route` (`Fits`), `Draws` and `Randomness` (uniform and fresh choices), `Odds` (probabilities of
waiting times), `Network`, `Node`, `Keys`, `Surbs`, `Posting`, `Sending`, `Turns`, `Steady`, `Waiting`, `Leaving`, `Connections`, `Load`, `Forget`,
`Defaults`, `Panics`, `Observe` (what can be seen from outside), `Hiding`; for managers `RequestManager`, `ReplyManager`, `Answer`,
`Replies`, `Order`, `Tries`, `Settle`, `Deadline`, `Overflow`, `Altered`, `Forged`, `Unlinkable`, `Memory`, `Timely`, `Punctual`, `Lifetime`, `Mixing`, `Phases`, `Together`; for networks of many machines `System`, `Managed`, `Whole`,
`Progress`; and small concrete networks used by the examples (`World`, `ManagerWorld`, `ReplyWorld`, `Props/Instances` with further concrete cases, and the `*World` files of
`Props/`). `Proofs/` has helper lemmas. `Props/` has the property theorems, each followed by examples that meet its hypotheses.

## 2. Conventions (where the model simplifies)

* **Panics** are explicit: a function that can panic returns `Except Panic α`. `debug_assert!` is modelled as a
  panic (debug build); a theorem "never panics" therefore covers both builds, and since a release build only
  differs by skipping the assertion, results of non-panicking runs are those of the release build too.
* **`&mut`** becomes returning the new value; state on the error path is returned too, so that theorems about
  refused calls are about the state the Rust code really leaves.
* **`usize`/`u32`** are `Nat`, except where wrap-around or saturation matters (fragment arithmetic, replay
  filter: `UInt32`/`UInt64`; session indices: saturating/checked subtraction on `Nat` agrees with `u32`).
* **Randomness**: an RNG is an arbitrary infinite stream of naturals (`Rng := Nat → Nat`), `gen_range(0..n)` is the
  next number modulo `n`. Every outcome is realised by some stream; theorems quantify over all streams.
* **Time**: `Instant`, `Duration` are `Nat` (ns); "now" is a parameter.
* **`f64`**: `Delay` is an abstract type whose order laws (total preorder, monotone addition and conversion) are in
  `CryptoLaws` (`Model/RealCrypto` has them for binary64 rounding); the queue-delay estimate is an opaque function of its arguments (its formula over the reals is in `Model/QueueDelay`, its `f64` computation in `Model/QueueDelayF64`); rates are exact rationals (in `f64`: `Model/SendingF64`).
* **Containers**: `LinkedHashMap` is an association list in link order; `BinaryHeap` a list whose `pop` removes
  an element of greatest priority chosen by an arbitrary tie-breaker; `VecDeque`/`Vec`/arrays are lists.
* **Crypto primitives** (X25519 scalar multiplication, BLAKE2b MAC/KDF, ChaCha20, LIONESS) are parameters with
  the algebraic laws of `CryptoLaws`; nothing about secrecy or unforgeability is claimed. The laws for scalar
  multiplication are those of the prime-order subgroup: public keys with a torsion component are outside them.
  C84 proves `CryptoLaws` for the real primitives, written out after their specifications, so no theorem rests on an
  unproved assumption about them; trusted is that the crates implement the specifications (known vectors are checked).

## 3. Properties: what is modelled, how it is proved, by which theorems

* **C01** Message splitting and reassembly is lossless for every arrival order. Byte-level fragments. Split = `fragmentBlueprints` + `writeExceptSurbs` + SURB writing; an independent notion `Spec.Sent` of "these fragments carry this message"; reassembly by an invariant over arbitrary fragment lists (the slots filled are the fragments received), so any order, with other traffic in between. (proved: `roundtrip`, `roundtrip_interleaved`, `sent_exists`, `sent_length_least`, `sent_whole`) single message exact limits; with other traffic when there is room for the whole stream
* **C02** Splitting arithmetic: exactly the right number of fragments, or a refusal. `fragmentBlueprints` against the arithmetic specification `CanCarry`; least number of fragments by a counting argument. (proved: `split_refuses_iff`, `split_exact`)
* **C03** Reassembly memory is bounded under any traffic. Inductive invariant `FAInv` of the assembler over arbitrary insertions. (proved: `reassembly_bounded`)
* **C04** Reassembly never panics on hostile fragments. Totality of `insert` under `FAInv`, for arbitrary 2048-byte fragments. (proved: `reassembly_no_panic`)
* **C05** A message handed out is made of fragments that were really received. Invariant relating stored fragments to the history of received ones. (proved: `reassembly_provenance`, `reassembly_completes_with`, `reassembly_never_holds_whole`)
* **C06** Eviction from the reassembly buffer takes the least recently extended message only. Case analysis of an insertion (`InsertCase`): rejected, evicting, completing, storing. (proved: `reassembly_rejects`, `reassembly_evicts_first`, `reassembly_completion_keeps_others`, `reassembly_recency_order`)
* **C07** Scattered data behaves as one concatenated slice. List algebra on the `Scattered` record against `toVec`. (proved: `scattered_len_toVec`, `scattered_splitAt`, `scattered_splitAt_panics`, `scattered_copyToSlice`)
* **C08** Request packets peel hop by hop to the chosen route and payload. Refinement of the imperative, in-place `build_header` to a recursive header; induction over the path; the independent relation `Spec.Travels` says what each hop sees. (proved: `request_packet_travels`)
* **C09** A reply sent with a SURB reaches the SURB's creator and decrypts. As C08, for `build_surb` and `complete_reply_packet`; the payload layers commute by the LIONESS laws. (proved: `reply_packet_travels`)
* **C10** Cover packets travel their route and deliver nothing. As C08; plus that a cover packet leaves the receiving node as it was, apart from the replay filter. (proved: `cover_packet_travels`, `cover_does_nothing`)
* **C11** The sender knows the forwarding delay each hop will apply. The delay returned by the builder is the sum of those the hops compute. (proved: `request_packet_travels`, `reply_packet_travels`, `cover_packet_travels`, `delay_depends_on_secret_only`)
* **C12** Peeling is total and classifies every action code. Case analysis of `peel` at byte level: every 2252-byte packet. (proved: `peel_total`, `peel_index_in_range`)
* **C13** A packet whose header was altered is rejected unless the MAC collides. The MAC covers all of the header after it; altered headers are rejected unless the MAC of the altered header collides; altered payloads are detected unless LIONESS decryption gives 16 zero bytes. (proved: `tampered_header_rejected`, `tampered_payload_detected`, `reply_payload_checked`, `tampered_reply_detected`)
* **C14** A packet once accepted is never processed again in that session (no replay). Invariant over histories: accepted tags stay in the filter of the session. (proved: `no_replay`, `request_accepted`, `session_kept`) request_accepted is the non-vacuity side: what is not a replay and not dropped for another reason is accepted
* **C15** The replay filter has no false negatives and starts with no false positives. Bloom filter with 32/64-bit wrap-around arithmetic against a set of bits. (proved: `filter_contains_iff`, `filter_no_false_negatives`, `filter_fresh`, `filter_insert`, `filter_tag`)
* **C16** A SURB answers at most once. Histories: keys of a SURB leave the keystore when the reply is handled. (proved: `surb_answers_once`)
* **C17** SURB key storage is bounded and evicts the oldest first. Refinement of the keystore to a list of creations and uses (`Spec.remembered`). (proved: `surbs_remembered`)
* **C18** Forwarded packets leave in deadline order and none is lost or duplicated. Refinement of the forward queue to a multiset; histories by induction. Ties between equal deadlines are broken by an arbitrary oracle. (proved: `forward_step`, `forward_conservation`, `forward_deadline`, `forward_bounded`, `forwards_unique`)
* **C19** The authored packet queue is FIFO and never exceeds its capacity. Refinement to a FIFO list over histories of the node. (proved: `authored_fifo`, `request_admission`, `reply_admission`, `authored_bounded`)
* **C20** The space-available event is never missed. Two-state history argument: from a refusal for lack of space to room for the request, an event is raised. (proved: `space_event`, `reply_space_event`, `request_space_event`, `keeps_runs`) for a session that exists throughout the history; if a session is destroyed and re-created its queue is emptied without an event (finding in DESIGN.md)
* **C21** Routes never repeat a mixnode unless unavoidable and never pass through the local node. `gen_route` with an arbitrary random stream, on any topology that `Topology::new` can make and any connectivity. (proved: `route_no_repeats`)
* **C22** Routes have the right length and endpoints and always fit a packet. As C21: length, end points, at most six targets, all indices in range. (proved: `route_shape`, `route_exists_iff`)
* **C23** Random mixnode choice is uniform over the allowed mixnodes. `UniformOver`: the choice is `f (draw mod n)` with `f` a bijection from the n numbers to the allowed mixnodes. (proved: `choose_mixnode_uniform`, `choose_destination_uniform`)
* **C24** Gateway choice avoids the other endpoint when it can and is uniform. As C23, for gateways. (proved: `choose_gateway_uniform`, `view_gateways_nodup`)
* **C25** Reserved peers are exactly the connections a node needs. `Topology::new` and the reserved-peer functions on arbitrary mixnode lists. (proved: `reserved_peers_exact`, `is_mixnode_iff`, `first_hop_reserved`, `node_reserved_peers`)
* **C26** Whether a route can be built does not depend on luck. Success of `gen_route` characterised by `Spec.Fits` (a counting condition without the random stream). (proved: `route_exists_iff`)
* **C27** A refused request changes nothing. `post_request` on the full node state: every refused call leaves queues and sessions unchanged. (proved: `request_refused`)
* **C28** A posted request is queued completely and addressed to reachable peers. `post_request` on the full node state: `PostDone`, packets and SURBs as the Sphinx builders make them for generated routes. (proved: `request_posted`)
* **C29** Posting a reply consumes exactly the SURBs it uses. `post_reply`: SURBs used, in which order, and what a failure leaves. (proved: `reply_posted`, `reply_refused`, `reply_too_few_surbs`)
* **C30** Posting is allowed exactly in the sessions and phases documented. `postSession` against the table in `Spec/Posting`. (proved: `request_session`, `reply_session`)
* **C31** Key pairs belong to one session. Key pairs over histories of the node. (proved: `status_keys`, `key_history`, `key_constant`, `next_key`, `session_key`)
* **C32** There is never a previous session at index 0 and no session-index underflow. Inductive invariant of the node. (proved: `no_previous_session`, `no_index_underflow`)
* **C33** Mixnodes are set at most once per session and failures behave as documented. Case analysis of `maybe_set_mixnodes` in every slot state. (proved: `set_mixnodes`, `permanent_error_sticks`, `set_once`, `mixnodes_stay`)
* **C34** After CoverToPrev nothing authored for the previous session is sent. `pop_next_authored_packet`: full case distinction `AuthoredStep`; the shares by counting the draws. (proved: `authored_dispatch`, `not_allowed_not_sent`, `no_cover_no_packet`, `authored_odds`)
* **C35** Change notifications are complete. Flags over histories against changes of the observable. (proved: `notified`, `notified_history`, `take_events`)
* **C36** Handling any packet never panics and affects at most one session. `handle_packet` on every packet in every reachable state. (proved: `handle_packet_safe`)
* **C37** A mixnode forwards a packet to the right peer after the right delay. `handle_packet` with a relaying action. (proved: `forwards_packet`, `full_queue_drops`, `unknown_target_drops`, `non_mixnode_only_replies`)
* **C38** End to end: a posted request arrives as posted. Composition of C08 with `handle_packet` of the relays and of the destination and with reassembly. (proved: `request_arrives`) Any reachable requester, relays and destination; routes as generated; relaying is a step of any reachable mixnode holding the listed key; packets in any order with anything else in between that does not touch the stored fragments of the message.
* **C39** End to end: a reply arrives with the id of the request it answers. Composition of C09, C16 and reassembly at the requester. (proved: `reply_arrives`) Any SURBs of the request, any replier with the same mixnode list; the requester must still hold the SURB keys when each packet arrives.
* **C40** Requests are never lost or duplicated by the request manager. `RequestManager` state machine over histories, with the real `post_request` of the model node underneath; independent bookkeeping of what the caller was told. (proved: `no_request_lost`, `given_up_iff_refused`, `remove_returns`)
* **C41** The number of posts per request is bounded and retries are exhausted exactly. Count of posts per request along histories. (proved: `posts_bounded`, `exhausted_exactly`, `posted_less_still_managed`)
* **C42** The request manager respects its capacity. As C40: number managed. (proved: `has_space_iff`, `capacity_respected`) insert without space is a failed debug assertion, i.e. no step
* **C43** Retries come due in deadline order and the deadline notification is complete. Invariant of the retry queue; announcement of deadline changes. (proved: `retry_queue_sorted`, `next_deadline_earliest`, `pop_retries_earliest`, `deadline_changes_announced`)
* **C44** Queued requests are always bound to the session of their queue. Invariant of the post queues; panics of the manager only if the mixnet calls underneath panic. (proved: `requests_bound`, `panics_only_in_mixnet`)
* **C45** A message id is used for one destination in one session only. History of (message id, destination, session). (proved: `id_one_destination`) assumes the random message ids drawn are different
* **C46** Processing the post queues terminates and stops only when full. Termination measure of the post loop and what is true when it stops. (proved: `post_loop_ends`, `queues_processed`)
* **C47** A request is handled at most once while remembered. `ReplyManager` state machine over histories. (proved: `handed_out_iff`, `handed_out_once`, `remembered_until_evicted`)
* **C48** The reply manager's memory is bounded and evicts oldest first. As C47. (proved: `memory_bounded`, `evicts_oldest`, `abandon_forgets`)
* **C49** Repeats are answered with the same reply, no more often than the cooldown. As C47; times of answers. (proved: `repeat_answered`, `repeat_ignored`, `completes_once`, `answers_spaced`, `copies_surbs`, `reply_panics_only_in_mixnet`) time since the last posting is the saturating difference, as in the code
* **C50** The round-trip estimate covers all its parts. Monotone-maximum reasoning on the loop of `post_request`. (proved: `metrics_cover`, `estimate_covers`) the queue-delay formula (f64) is an opaque function here; its properties are C59, C86 and C88
* **C51** Sending rate is kept constant across session changeover. Exact rational arithmetic in place of `f64`. (proved: `mean_period`, `delay_capped`, `no_delay`, `session_share`, `authored_odds`) exact rationals instead of f64; the exponential sample is an arbitrary non-negative number
* **C52** All admissible routes are equally likely. A bijection between the sequences of bounded draws `gen_route` makes and the admissible routes. (proved: `routes_equally_likely`) uniform in the sense of a bijection between the equally likely sequences of bounded draws and the admissible routes
* **C53** A request is not retried before its replies are overdue. Invariant of the request manager relating deadlines to the posts made. (proved: `retry_when_overdue`) under the hypothesis that the random message identifiers drawn are distinct
* **C54** No call panics with a sane configuration. Totality of every modelled function under the node invariant, bottom up. (proved: `no_panic`) debug build (debug assertions count as panics); the examples show each condition is needed
* **C55** Whether a post is accepted, and if not why, is predictable. The result of `post_request` computed from configuration, phase, topology, connectivity and queue alone. (proved: `request_answer`, `reply_answer`, `request_always_answered`) hypothesis: a destination given by the caller exists in the session (otherwise the call panics, see findings)
* **C56** No random number is used twice in a request. Offsets into the random stream: every builder returns the stream advanced past what it used. (proved: `fresh_randomness`) the generator is an arbitrary stream of numbers; the bytes of packets and SURBs are given exactly as a function of which numbers are used; distributions of the numbers themselves are not modelled
* **C57** A request manager used with a node never panics. Invariant relating the destinations the manager keeps to the sessions of the node, on top of C54. (proved: `manager_no_panic`) hypothesis: session indices never decrease; an example shows that otherwise a retry may panic
* **C58** A reply manager used with a node never panics. Totality of `post_reply` (C54) along the histories of a reply manager, with its invariant. (proved: `reply_manager_no_panic`)
* **C59** The queue-delay estimate is conservative and grows with the queues. The formula over the reals (`Model/QueueDelay.lean`); inequalities of square roots. (proved: `queue_delay_symmetric`, `queue_delay_exceeds_mean`, `queue_delay_grows`, `queue_delay_scales`, `queue_delay_special`, `queue_delay_not_monotone`, `posted_queue_delay`, `posted_queue_delay_covers`) real numbers in place of f64; how often it is exceeded: C88
* **C60** Fragments have exactly the documented bytes. A separate definition of the format (`Spec/Wire.lean`); induction over the blueprints, writing into zeroed buffers. (proved: `request_on_the_wire`, `reply_on_the_wire`) messageFragments is defined in Spec/Wire.lean from the documented format
* **C61** Packets and SURBs have exactly the documented bytes. A separate recursive definition of header layers (`Spec/Wire.lean`); the in-place construction of the code is shown to compute it by induction over the hops. (proved: `request_packet_bytes`, `surb_bytes`, `cover_packet_bytes`, `reply_packet_bytes`, `forwarded_bytes`, `request_on_the_wire`, `reply_on_the_wire`, `cover_on_the_wire`, `forward_on_the_wire`) the primitives (X25519, BLAKE2, ChaCha20, LIONESS) are abstract functions; the format is defined in Spec/Wire.lean
* **C62** What is posted cannot be told from when packets are sent. A relation between nodes that ignores queues of authored packets, SURB keys, incomplete messages and events; private calls stay within it, every other call preserves it and shows the same; induction over both histories. (proved: `posting_unobservable`, `cover_possible_mixnode`) the times of the calls and the random draws of the other calls are inputs, the same in both histories; that the bytes of cover, request and reply packets look alike is a property of the ciphers and not modelled
* **C63** A posted packet is sent when it is its session's turn. What one call does to the queue of a session (C29 and the draws of C34), then induction over the history. (proved: `sent_in_turn`, `turn_step`) turns are defined by the draws, in Spec/Turns.lean; how often the draws give a turn is C34
* **C64** A relay holds a packet at most ten times the mean forwarding delay. The peeled delay is the capped sample of the derived seed (delay laws: total order, monotone conversion); induction over the history for what is queued. (proved: `held_at_most`, `all_due`, `held_for`, `forwarding_delay_capped`, `delay_sampled`) the hypothesis h10 says that Duration::mul_f64(10.0) of the configured mean is exactly ten times it; the sample of the exponential distribution is an arbitrary function of the seed, only the cap is modelled
* **C65** A request waiting in the request manager is never stranded. Invariant over all interleavings of manager and node: every nonempty post queue is blocked by a nonempty packet queue, or the space event is pending or was told; popping sets the event whenever the packet queue becomes empty; a failed post for lack of space means a nonempty packet queue. (proved: `never_stranded`) Attended (Spec/Waiting.lean) is the usage the documentation of the request manager asks for; that queued packets are sent in turn is C63
* **C66** A request is tried at a bounded number of destinations. Potential: message ids drawn for a request, plus destinations remaining, plus one if its session is over; no step raises it but insertion (by num_destinations) and a change of the session status (by at most one per request held). Posts per id: an invariant that ids of different states differ and that posts made and to come with an id fit the configured number. (proved: `tries_bounded`, `destinations_bounded`, `posts_per_try`, `destinations_tried`, `changes_counted`) all but tries_bounded and changes_counted assume that the random message ids are different; the bound counts every change of the session status the manager learned of, though only those that end the session of the request cost a try
* **C67** Requests are first posted in the order of insertion. Invariant: a request that was never posted is in the default queue, and the never posted requests stand in it in the order of insertion; only a successful post, an error or remove take one out. (proved: `first_posts_in_order`) the order of a retry after the first post is C43
* **C68** The default configuration goes together. The default configurations are modelled as they are; instances of C02, C41, C54, C55, C57 and C66, plus the invariant that the queue of a session has the capacity configured for its kind. (proved: `default_sane`, `default_sendable`, `request_room`, `reply_room`, `surbs_known`, `default_no_panic`, `default_posts`) a request of the allowed size may ask for up to 225 SURBs though by default the node remembers only 200
* **C69** Sessions that are over are forgotten. Two nodes that agree but for the sessions not kept; case analysis on the shift of the index shows that set_session_status makes them equal. (proved: `forgotten`, `forgotten_for_good`) SURB keys, incomplete messages and packets to be forwarded do not belong to a session and stay; and Mixnet::new leaves a copy of session_0_kx_secret (for testing only, says its comment) in the configuration, which is kept. That memory is overwritten (zeroize) is not modelled.
* **C70** A packet to be forwarded leaves in time. The number of packets due by a time is a measure: arrivals with a later clock reading leave it alone, a pop lowers it by exactly one; with the conservation theorem of C18 the packet is among those that left. (proved: `due_leave`, `leaves_in_time`)
* **C71** A reply settles the request it is a reply to, for good. Two invariants over the small steps of the manager: every entry of the log, every request returned and every request in the manager is one that was there before or was inserted; and a request inserted once carries the last id drawn for it. With C40 and C45 these give an exact description of `remove`. (proved: `settled_for_good`, `remove_iff`, `remove_right`, `late_reply_ignored`, `reply_settles`)
* **C72** Secrets for different purposes are derived independently. `Model/Blake.lean` has every call of BLAKE2b with its parameters byte for byte. The wanted values are put together into one function by decoding the parameters; that this is possible is the proof that the parameters determine purpose and input. (proved: `secrets_independent`, `laws_with_blake`) The hash function itself is a parameter; what is modelled is the size, key, salt, personalisation and message of every call.
* **C73** In a whole network, everything delivered was posted. `Spec/Whole.lean` has machines, events and histories; a packet may be handled by any machine any number of times once it was sent. The invariant (`Proofs/WholeInv.lean`): every packet anywhere is a stage of a packet made for some purpose, and is on its way to the right machine; everything stored is a fragment of something posted; every SURB key known belongs to a SURB made. Induction over the history, using the theorems on packets (C01, C47) and on reassembly (C05). (proved: `requests_have_cause`, `replies_have_cause`, `records_exist`, `nodes_reachable`) Assumes, as a hypothesis on the history, that no packet sent can be opened with the keys of two machines or sessions (an ideal MAC), and that message ids and SURB ids are not reused.
* **C74** In a whole network, a request is delivered at most as often as it was posted. The packets that brought first fragments are counted: each is different (replay filter, which survives as long as the session does, and sessions do not come back), each is the last stage of one packet of one post, and each delivery uses up one first fragment. (proved: `delivered_at_most_as_posted`) Same hypotheses as C73, and that no machine goes back to an earlier session.
* **C75** A request gets no more replies than SURBs were made for it. Potential argument: replies handed out for a message id plus SURB entries still stored for it never exceed the SURBs asked for; each reply removes its entry. (proved: `replies_within_surbs`) any packets, genuine or forged
* **C76** Requests handled and replies received are what programs asked and answered, through managers, nodes and network. Model of machines with a node and both managers (Spec/System.lean, Running). Every history projects to a history of nodes (C73), of each request manager (C45, C66) and of each reply manager (C47); message ids link the three. (proved: `handled_is_request`, `reply_is_answer`, `removed_is_answered`) Hypotheses: message ids drawn are different; SURB ids and SURBs made are different; no packet can be opened by two machines; what a request sends does not depend on the context; programs post only through the managers and give the reply manager only delivered requests and contexts it handed out. Met by a concrete history (Props/SystemWorld.lean).
* **C77** A network of machines with managers never gets stuck or panics. Projection to InUse and ReplyInUse (C57, C58): posts by one manager are node calls for the other; the log of a manager is replayed as node calls (Feeds) to extend the history. (proved: `node_goes_on`, `request_goes_on`, `reply_goes_on`, `explained`) Configurations sane; numPostsPerAttempt, numAttemptsPerDestination at least 1; the only panic left is a repeated random SURB id, with its cause.
* **C78** A request is handled by few machines, and by each of them once while remembered. C45 (one destination per id) and C76 give one machine per id; C47 at that machine; C66 bounds the ids drawn. (proved: `one_meaning`, `handled_twice`, `handled_by_few`) Hypotheses as for C76.
* **C79** A message is reassembled under load: only enough other messages since its last fragment can drop it. Model/Fragment (LRU list). Invariant: the entries after the message in the list are among those that got a fragment since its last one; eviction drops the head, so if it hit the message all others would be after it, and then they all fit. (proved: `reassembled_under_load`, `not_dropped`) The limit is sharp for the number of messages (example in Props/LoadWorld.lean). Message ids of other traffic are supposed to be different (they are random).
* **C80** The replay filter takes few fresh packets for replays. A reported tag has its first two probes among the at most 8n bits set; two probes and the 6+6 unused high bits determine the tag, so at most (8n)^2 * 2^12 tags are reported. At the node by an invariant: every filter was made by at most as many insertions as packets were handled. (proved: `few_reported`, `few_dropped`) Worst case over all inserted tags; the rate of about 1 percent at 7 million packets in a comment of the code is an average for random tags and is not claimed. That tags of fresh packets are uniform is a property of the hash and is not modelled.
* **C81** A request waiting in the request manager is tried when it is its turn. The place of a request in its queue never gets worse in a small step (C40's decomposition), also not by a session update for the default queue; a call with an idle session takes at least the first request, because a post is refused for lack of space only if packets are queued. (proved: `tried_in_turn`, `bound_tried_in_turn`, `inserted_tried`) The last condition is needed: a worked case in Props/ProgressWorld.lean shows a bound request overtaken.
* **C82** A request put into a request manager is answered, by way of the network and a reply manager. The log of a manager call is a sequence of post_request steps of the node (C57); each later post only lengthens the queues and adds to the keystore. Then C38/C39 (requests and replies arrive) are applied to the step in the middle, with the reply manager's copies split in the same way; settling follows from the latest message ID (C71). (proved: `request_answered`, `answer_settles`) That packets really arrive is an assumption about the network; the theorem says what happens if they do. Message IDs are supposed to be drawn different for answer_settles.
* **C83** Cover packets take the routes that requests take. Model: `genCoverPacket`, `RequestBuilder.new`/`buildPacket`, `popNextAuthoredPacket` and the network of C38 (`FindsWay`, `Relays`). Proof: the packet built for the generated route is on its `Way` (C08, C10 with `route_way`); the draws of a call are made explicit (`drawn`, `RequestDraws` of C56), so the destination and the route come from the same positions of the same stream; `same_peers` follows two packets on one way by induction on the hops. (proved: `cover_arrives`, `cover_like_request`) cover_arrives: every packet popped is either the first of its session's queue, or finds its way (FindsWay, as in C38) to a cover destination or home and does nothing there. cover_like_request couples the two kinds of packets: same state, same random numbers, same route, hop by hop.
* **C84** The cryptographic primitives fit together as the protocol needs. `realCrypto` is an instance of the primitives written out: X25519 on natural numbers (the ladder of RFC 7748), BLAKE2b (RFC 7693), ChaCha20, LIONESS, and `f64` addition and `Duration::mul_f64` as exact arithmetic with rounding. `realLaws` proves `CryptoLaws` of it. The doubling and differential addition formulas are proved against Mathlib's group law on `y² = x³ + A x² + x` (`Proofs/Montgomery`), the invariant of the ladder by induction over the bits (`Proofs/Curve25519`), the special case of coordinate 0 apart; the primes by Lucas's criterion. `payload_cipher_rounds` gives LIONESS byte by byte, against a specification (`FourRounds`) that does not use the model's rounds. Known vectors are evaluated by the kernel (proved: `realLaws`, `public_key_point`, `shared_secret_point`, `public_key_honest`, `honest_mul`, `honest_ne_zero`, `honest_injective`, `diffie_hellman`, `payload_cipher`, `payload_cipher_rounds`) CryptoLaws proved for the real primitives (Model/Curve25519, Model/Primitives, Model/RealCrypto): the Montgomery ladder is proved to compute multiples on Mathlib elliptic curve points, 2^255-19 and the group order are proved prime by Pratt certificates. The crates themselves are not in /repo: the algorithms follow their specifications and are checked on known vectors. rand_distr::Exp1 and the queue-delay formula stay parameters.
* **C85** A hop cannot tell from a header where on the path it is or how long the path is. `Spec/Hiding` has the packet as it arrives at hop j (`arriving`), what the hop reads (`readAt`) and the padding bytes (`Hiding`). The header is reduced to layers over a path split at the hop; the padding behind the hop is solved for first, then the layer in front of it (its plain text depends on the padding through the MACs), which gives existence and uniqueness. (proved: `hop_reads_action`, `header_hides`, `own_keystream_kept`, `position_hidden`, `arriving_handed_on`, `request_handed_on`) information-theoretic form: the keystreams and MACs of the other hops are variables; nothing is said about the public key and the payload of the packet
* **C86** The queue delay estimate computed in f64 is within nanoseconds of its formula and still covers the mean. `Model/QueueDelayF64` has every `f64` operation of the estimate as exact arithmetic with rounding. `Proofs/Binary64` has a calculus of relative errors (`Rel b k x y`: equal up to k factors b) with which the roundings are counted: 26 for the factor, 29 for the estimate. The effect of rounded periods is counted in the same calculus with another factor; that the branch does not matter follows as rounding is monotone and the formula symmetric at ties. (proved: `interval_close`, `estimate_close`, `f64_close`, `f64_covers_mean`, `posted_f64_covers`) f64 arithmetic as exact arithmetic followed by round-to-nearest-even (Model/QueueDelayF64, Model/RealCrypto), sqrt correctly rounded; overflow of f64 and Duration left out
* **C87** Sending delays and the choice between sessions survive floating-point rounding. `Model/SendingF64` has the two computations with every operation rounded. The error calculus of C86 counts 11 roundings for the delay and 6 for the share; that the share is at most 1 follows as `f64`s are not rounded again (`round_round`) and rounding is monotone. (proved: `delay_close`, `choice_close`, `threshold_close`) f64 as exact arithmetic followed by rounding (Model/SendingF64); overflow of f64 and Duration left out
* **C88** The queue delay in the metrics is seldom exceeded. `Spec/Odds` says when two queues are empty, `Spec/Steady` what draws a node uses. `Proofs/Tail`: the waits until a turn form sums of capped exponentials over a geometric number of opportunities; a supermartingale gives the exponential moment, and Chernoff's bound with `log(1-u)` estimates the tail. `Proofs/Steady(Odds)`: while sessions do not change, turns are decided by the draws alone, with the probability of C87. `Props/QueueTail` compares the tail with the formula and with its `f64` computation (C86). (proved: `estimate_tail`, `nodes_tail`, `posted_delay_tail`, `excess_small`) probabilities over ideal exponential samples and uniform 64-bit draws; the code comment aims at 99.995 per cent, which is not claimed here
* **C89** Round-trip estimates and retry deadlines are bounded by the configuration. `Spec/Deadline` has the limits and `UsedUntil` (`InUse` of C57 with a limit on the clock at posts). `Proofs/QueueMono`: the `f64` estimate is monotone in the queue lengths (`sqrt` and rounding are monotone). `Proofs/Deadline`: each delay is capped at 10, at most 5 are added on a route; deadlines of all requests in a manager are kept below the limit by every micro-step of a manager call. (proved: `estimate_bounded`, `due_soon`, `default_limit`, `until_in_use`, `f64Delays`) for primitives whose delays are f64 numbers (F64Delays; f64Delays shows that the real ones are such); meanForwardingDelay at most 2^49/100 ns, about 1.5 hours, so that one nanosecond covers the rounding
* **C90** Packets go over declared connections. `Spec/Connections` defines reserved peers, the restriction on the calls (`SendsToOthers`, an inductive set of reachable nodes) and `Connection`. `queued_from` says, for every call, where each packet in the authored queues comes from; by induction over the calls every queued packet is for a reserved peer of its session, whose topology never changes; cover packets by the shape of the routes (C22, C23). Forwarding: from `Forwards` (C12) and the reserved peers of a mixnode. Routes: the hops without repetition (C23) form a chain of connections. (proved: `authored_to_reserved`, `authored_to_mixnode`, `forwarded_to_reserved`, `route_connections`) at most six hops configured, as always; an example shows why a loop of a mixnode needs two hops
* **C91** Time computations do not overflow. Model/Overflow.lean has each time computation again with a panic where an f64 is infinite or a Duration or Instant too large. Power-of-two bounds go through every rounding (round_mono, powers of two are f64s); lifted to nodes by the invariant, to posted requests by C89's metrics, to the manager by the in-use history. (proved: `request_fits`, `forward_fits`, `next_delay_fits`, `retry_fits`, `only_loops_overflow`) Checked versions of all time computations (Model/Overflow.lean) agree with the unchecked ones and do not panic.
* **C92** A packet whose payload was altered on the way is dropped. `Spec/Altered` has altered packets, the primitives with the payload cipher for one key replaced by a permutation, and chains of hops. That the header alone decides how a packet is peeled comes from C12's characterisation of `peel` and C61's bytes. `Proofs/Perms` counts: among the permutations with one value given, those that send another argument to `u` are equally many for every `u` (compose with a transposition), and one payload in 2^128 ends in the tag. (proved: `altered_peel`, `altered_handed`, `altered_forwards`, `altered_request_dropped`, `altered_on_the_way`, `original_request_accepted`, `altered_reply_dropped`, `actual_cipher`) The payload cipher with one key is an arbitrary permutation; LIONESS itself is not shown to be like a random one.
* **C93** Nodes need not change phase at the same moment. `Spec/Phases` numbers the stages (four per session) and says what it means to post or send in a session. `session_stays` is by induction over the history, from the case analysis of `set_session_status` and the frame lemmas of the other calls (C65); the windows for posting and sending come from C22 and C31; the claims about two nodes combine them by arithmetic. (proved: `session_stays`, `session_over`, `sends_in_window`, `posts_in_window`, `other_has_session`, `other_in_session`) Two arbitrary reachable nodes; stages are four times the session index plus the phase.
* **C94** Forged and altered headers are rejected. `Spec/Forged` has the primitives with another MAC function, the functions that agree with what was seen, and forged packets. `Proofs/Functions` counts: a share of exactly one in 2^128 of the functions has a given value at a place not seen. A packet that has any effect is accepted by one of at most two sessions, so its MAC is the function's value at one of two places. `seen_unaffected` compares `peel` and the search for a session with both primitives step by step. (proved: `forged_dropped`, `all_forged_dropped`, `altered_header_dropped`, `altered_mac_dropped`, `seen_unaffected`, `actual_mac`) The MAC function is an arbitrary function with the values seen; keyed BLAKE2b itself is not shown to be like a random one.
* **C95** The bytes a relay sends on say nothing about the packet they come from. `Spec/Unlinkable` has the primitives with another keystream and payload permutation for one secret, and what a relay hands on. `handsOn_iff` reduces `peel` to two independent conditions, on the keystream and on the permutation; `Proofs/Functions` counts both (XOR with a fixed string is a bijection; a permutation takes an argument to each value equally often). For two packets the primitives are replaced for both secrets, and the set of choices is a product. (proved: `relay_share`, `relay_same`, `relay_unlinkable`, `forwards_handsOn`, `actual_relay`) The keystream and the permutation are arbitrary; ChaCha20 and LIONESS themselves are not shown to be like random ones, and the blinded public key is left out.
* **C96** A node's memory is bounded by its configuration. Invariant over all calls that every queued packet has 2252 bytes and every SURB entry at most six keys of 192 bytes (each packet builder preserves the buffer size); with the capacity invariants the sum is bounded. (proved: `memory_limited`, `tables_limited`, `packet_size`, `sent_size`) byte strings of variable size are counted; fixed-size data (replay filters, keys, flags) and allocator overhead are not
* **C97** A reply comes within the estimated round-trip time. Timed journeys of packets through relays in arbitrary reachable states (Spec/Timely). Each relay's deadline is the time of handling plus the duration of the delay sealed in the header for it (handle_packet, peeled_delay); by induction over the journey the durations add up; a rounding-error analysis of binary64 shows that up to ten rounded durations exceed the duration of the rounded total by at most a few ns, covered by the strict bound on each hop; then what C50 shows about the metrics. (proved: `reply_in_time`, `held_within`) All relays use the mean forwarding delay of the requester; f64 addition and multiplication are assumed correctly rounded (structure F64Delays, satisfied by the example), num_hops is at most 6 and 100 times the mean forwarding delay is at most 2^49 ns. The waits in the queues are hypotheses: C88 bounds them in probability.
* **C98** A request is not posted again before a timely reply. The log of a manager's call is split at the post (`feeds_split`), which gives a reachable node that did `post_request`; C97 applies to it, with the manager's time and handling delay. C53 says that a waiting request's deadline is no earlier than any time expected for its message ID, and C45 that the message ID is that of this request only. With C99 it is not posted again. (proved: `answered_before_retry`) under the assumptions of C97; that pop_next_retry is not called before the time next_retry_deadline returns is a hypothesis on the program (Spec.Punctual)
* **C99** A request waiting for a retry is left alone until it is due. `Spec/Punctual` has histories in which retries are popped only when due. That a waiting request stays is shown call by call (`step_waits`: the functions of the manager only add to the retry queue, but for `remove` and the popped head). That it was not posted: invariant over the manager's elementary steps that the request is untouched, or every state with its id has fewer attempts left (`keeps_micro`); the ids of the requests held are distinct. (proved: `waits_until_due`, `waiting_not_posted`) message ids drawn are assumed different, for the claim about posts
* **C100** No request stays in the request manager for ever. `Spec/Lifetime` has the histories with a user at most delta late. Invariant over the manager's elementary steps in a call at time tau (`Lives`): the deadline of the request plus the tries left times (L + delta) never exceeds the limit; a retry takes one try (`retry_left`), and a post sets a deadline at most L later (C89). (proved: `leaves_the_manager`) Hypotheses as for C89 (F64Delays, Sane, mean forwarding delay at most about 1.5 hours); that there is room for the posts of the request is a hypothesis on each state (NotQueued), C65 and C81 are about the waiting for room; that what left was removed or handled is C40.
* **C101** A relay mixes packets. `Spec/Mixing` has the primitives with another source of samples, two packets arriving in any history, and what it means that one leaves before the other. What is due earlier leaves earlier (`earlier_first`, by induction over the log of the queue); a packet is held for the capped sample times the mean to within a nanosecond (`held_near`, rounding errors of binary64); the probability that one exponential sample is ahead of another by a given amount is computed as an integral (`exp_ahead`; `exp_first` for the first of many, by splitting the product measure). (proved: `relay_mixes`, `cases_exclusive`, `next_is_uniform`) That the samples are independent and exponential is a hypothesis (RandomSamples, ManySamples), as the generator seeded with the delay seed is not random; the probabilities are over the samples, the histories are quantified for each outcome.
* **C102** Delays and waits are exponentially distributed with the configured means. A packet is held for the capped sample times the mean to within a nanosecond (`held_near`, as for C101), and the wait is the capped sample times the mean period (C51). The mean of a capped exponential sample is computed from its tails (`mean_capped`, the layer-cake formula); `mean_near` carries it over. (proved: `holding_time`, `waiting_time`) That the samples are exponential is a hypothesis (OneSample). The wait is that of the model with exact numbers; C87 bounds the difference to f64.

## 4. Trusted base

* Lean's kernel (4.33.0). Each theorem named above depends on at most the axioms `propext`, `Classical.choice`
  and `Quot.sound` (checked with `#print axioms`). No own axioms, no compiled-code tactics.
* The reading of the Rust code: every definition of `Model/` cites the lines it models and says where it simplifies.
* The conventions of section 2 and the laws of `CryptoLaws` (hypotheses of the theorems, not axioms; satisfied by
  `toyCrypto` and, with real curve arithmetic, hashes and ciphers, by `realCrypto`: C84, `realLaws`).
* The behaviour of dependencies as modelled: `rand` (uniform choice from a stream), `hashlink::LinkedHashMap`,
  `BinaryHeap`, `arrayref`/slices, `arrayvec` (capacity overflow panics), `bitvec`-like bit arithmetic written in the crate.

## 5. Not modelled

Logging and `Display`; zeroisation of secrets on drop; the network service around the crate (the network status
is an arbitrary function of peers); memory and running time, except the stated bounds; overflow of `usize`
for configuration values near its maximum (for example `FragmentAssembler::new` with a huge
`max_incomplete_messages`); overflow of `f64`, `Duration` and `Instant` for times beyond those of C91; the numerical value of the exponential delay (its cap at ten units is modelled);
timing side channels; secrecy, anonymity and unforgeability against a bounded adversary (C85 is about perfectly random keystreams, C92 and C94 count ciphers and MAC functions).

## 6. Findings: where the code does less than one may expect

Each is a consequence of the model (a witness or the exact form of a theorem); none is repaired in the model.

* `post_request` with a user-given `destination_index` outside the session's mixnodes panics instead of returning
  `BadMixnodeIndex` (example beside `no_panic`).
* `num_hops > MAX_HOPS` panics when a long enough route exists; a keystore capacity of 0 fails a debug assertion (in a
  release build `==` in the eviction test lets it grow without bound); attempts or posts of 0 in the request manager's
  configuration underflow; `loop_cover_proportion = 1` makes `post_request` panic after queuing the packets;
  zero packet periods make the period computations panic.
* `post_reply` is not atomic: a bad SURB in the middle leaves earlier packets queued and SURBs consumed (C29).
* Duplicated fragments arriving after completion start a new incomplete message; requests and replies share one
  assembler; the request id reported for a reply is the one of the SURB that brought the completing fragment.
* A false positive in the current session's replay filter drops a packet meant for the previous session.
* A session destroyed and re-created by an index jump empties its queue without a space event (C20 is for a session
  that is kept).
* Only the first five connected gateways are ever used in routes; a single connected gateway may repeat in a route;
  a mixnode's loop route with at most one hop has the local node as its first hop.
* If `set_session_status` goes back to an earlier session index and that session now has fewer mixnodes, a request
  manager's retry to the destination chosen before panics (example beside `manager_no_panic`).
* The queue-delay estimate may shrink when a period grows (`queue_delay_not_monotone`).
* The reply manager with capacity 0 hands out every repeat; with `max_posts` 0 a repeat still resets the cooldown.

## 7. Tests of the theorems against wrong programs

`seeded/LOG.jsonl` has one line per edit of the model, with the theorems that failed; `seeded/mutants.py` has the
edits and `seeded/runmut.py` applies each to a scratch copy and rebuilds.
