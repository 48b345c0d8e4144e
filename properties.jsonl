{"id": "C01", "title": "Message splitting and reassembly is lossless for every arrival order", "statement": "If a message (any id, any data, any list of reply blocks whose number fits) is split into packets' fragments and all of the fragments reach a receiver with no partly received message of that id, in any order and within the receiver's limits, then the receiver hands out exactly one message, on the last fragment to arrive, and its id, data and reply blocks (in order) equal the ones sent; nothing is handed out before that.", "quantifier": "every message id, every byte string, every list of SURBs, every permutation of the resulting fragments, every prior assembler state in which there is room", "why_tests_cant": "There are n! arrival orders and unboundedly many messages; the tests shuffle one 60000-byte message.", "anchors": ["src/core/fragment.rs::fragment_blueprints", "src/core/fragment.rs::FragmentBlueprint::write_except_surbs", "src/core/fragment.rs::FragmentBlueprint::surbs", "src/core/fragment.rs::FragmentAssembler::insert", "src/core/fragment.rs::GenericMessage::from_fragments"]}
{"id": "C02", "title": "Splitting arithmetic: exactly the right number of fragments, or a refusal", "statement": "Splitting refuses exactly when more than 65536 fragments would be needed; otherwise it yields at least one fragment, the data pieces concatenate to the data, the SURB counts add up to the requested number, every piece fits its fragment, all fragments but possibly the last are full in the sense that no smaller number of fragments could carry the data plus SURBs (9 SURBs at most per fragment), and the 64-bit saturating arithmetic never underflows or wraps.", "quantifier": "every data length and every requested number of SURBs representable in a 64-bit usize", "why_tests_cant": "The interesting boundaries are products near usize::MAX and 65536 fragments, which tests cannot allocate; the claim is about all lengths.", "anchors": ["src/core/fragment.rs::fragment_blueprints", "src/core/fragment.rs::div_ceil"]}
{"id": "C03", "title": "Reassembly memory is bounded under any traffic", "statement": "After any sequence of received fragments, however malformed or hostile, the receiver keeps at most the configured number of incomplete messages and at most the configured number of fragments, and its running count of stored fragments equals the number actually stored.", "quantifier": "every sequence of arbitrary fragment byte strings, every configuration of the three limits", "why_tests_cant": "An adversary chooses the sequence; tests only try two interleavings.", "anchors": ["src/core/fragment.rs::FragmentAssembler::insert", "src/core/fragment.rs::FragmentAssembler::maybe_evict", "src/core/fragment.rs::FragmentAssembler::need_eviction"]}
{"id": "C04", "title": "Reassembly never panics on hostile fragments", "statement": "Handing any fragment to the receiver in any reachable state never panics: no slice, index, expect, assert or debug assertion fails, and no counter underflows.", "quantifier": "every sequence of arbitrary fragment byte strings, every configuration of the limits", "why_tests_cant": "One byte string out of 2^16384 that panics is a remote crash; tests try well-formed fragments only.", "anchors": ["src/core/fragment.rs::FragmentAssembler::insert", "src/core/fragment.rs::IncompleteMessage::insert", "src/core/fragment.rs::IncompleteMessage::complete_fragments", "src/core/fragment.rs::GenericMessage::from_fragments", "src/core/fragment.rs::check_fragment"]}
{"id": "C05", "title": "A message handed out is made of fragments that were really received", "statement": "Whenever the receiver hands out a message of n fragments with some id, then for every position 0..n-1 a valid fragment with that id, that count and that position was received earlier (or is the current one), and the message's data and SURBs are exactly the concatenation of those fragments' contents in position order.", "quantifier": "every sequence of arbitrary fragment byte strings, every configuration of the limits", "why_tests_cant": "Needs an invariant over all histories, including duplicates, conflicting counts and evictions.", "anchors": ["src/core/fragment.rs::FragmentAssembler::insert", "src/core/fragment.rs::IncompleteMessage::insert", "src/core/fragment.rs::GenericMessage::from_fragments"]}
{"id": "C06", "title": "Eviction from the reassembly buffer takes the least recently extended message only", "statement": "A fragment that is accepted without completing a message evicts at most one message; the evicted one is the one whose last accepted fragment is the oldest among all incomplete messages; duplicate, malformed or inconsistent fragments change nothing at all; all other incomplete messages are untouched.", "quantifier": "every reachable assembler state and every fragment", "why_tests_cant": "A property of the order of all accepted fragments in an arbitrary history.", "anchors": ["src/core/fragment.rs::FragmentAssembler::insert", "src/core/fragment.rs::FragmentAssembler::maybe_evict"]}
{"id": "C07", "title": "Scattered data behaves as one concatenated slice", "statement": "A Scattered built from a slice or a slice of slices has the length of the concatenation; split_at at any mid <= len gives the two halves of the concatenation (again as valid Scattereds), panics exactly when mid > len, to_vec gives the concatenation, and copy_to_slice writes exactly the concatenation (and panics exactly when the lengths differ).", "quantifier": "every list of slices, every element type, every chain of splits", "why_tests_cant": "Case analysis on where the split falls among arbitrarily many slices; tests use five slices.", "anchors": ["src/core/scattered.rs::Scattered::split_at", "src/core/scattered.rs::Scattered::copy_to_slice", "src/core/scattered.rs::Scattered::to_vec"]}
{"id": "C08", "title": "Request packets peel hop by hop to the chosen route and payload", "statement": "For a request packet built for a path of 1 to 6 hops with at most one hop addressed by peer ID, peeling it successively with the hops' secret keys gives at each hop but the last a forward instruction to exactly the next hop of the path, and at the last hop a deliver-request action with exactly the payload data that was written; the packet output by each hop is the one the next hop accepts.", "quantifier": "every path, every key pair, every payload, every random seed, assuming only the algebraic laws of the primitives (Diffie-Hellman commutes, stream cipher is XOR, wide-block cipher is a permutation)", "why_tests_cant": "The header nests encryptions, MACs and length padding over all hop-size layouts; tests try one random layout of 5 or 6 hops.", "anchors": ["src/core/sphinx/build.rs::complete_request_packet", "src/core/sphinx/build.rs::build_header", "src/core/sphinx/peel.rs::peel", "src/core/sphinx/crypto.rs::gen_kx_public_and_shared_secrets"]}
{"id": "C09", "title": "A reply sent with a SURB reaches the SURB's creator and decrypts", "statement": "For a SURB built for a path of 1 to 6 hops with at most one peer-ID hop, completing a reply with it returns the SURB's first hop; peeling along the path forwards at each hop to the next one; the last hop obtains the SURB's id, and decrypting with the keys kept at creation yields exactly the reply payload data.", "quantifier": "every path, key pair, payload, SURB id and random seed, under the algebraic laws of the primitives", "why_tests_cant": "As for requests, plus the inverted layering of payload keys, for all path lengths.", "anchors": ["src/core/sphinx/build.rs::build_surb", "src/core/sphinx/build.rs::complete_reply_packet", "src/core/sphinx/peel.rs::peel", "src/core/sphinx/peel.rs::decrypt_reply_payload"]}
{"id": "C10", "title": "Cover packets travel their route and deliver nothing", "statement": "A cover packet (with or without id) built for any admissible path is forwarded along exactly that path and yields a deliver-cover action carrying its id at the last hop; a node handling a deliver-cover packet returns no message and changes nothing.", "quantifier": "every path, key pair, cover id, random payload; every node state", "why_tests_cant": "All layouts and all node states.", "anchors": ["src/core/sphinx/build.rs::build_cover_packet", "src/core/sphinx/peel.rs::peel", "src/core/mod.rs::Mixnet::handle_packet"]}
{"id": "C11", "title": "The sender knows the forwarding delay each hop will apply", "statement": "The total forwarding delay reported when a packet or SURB is built equals the sum, in hop order, of the delays the forwarding hops read off when they peel it; each such delay is a function of the hop's shared secret only.", "quantifier": "every path, key pair, payload and seed; floating-point addition is treated as an arbitrary (not necessarily associative) operation", "why_tests_cant": "Equality of two folds over every possible path.", "anchors": ["src/core/sphinx/build.rs::build_header", "src/core/sphinx/peel.rs::peel", "src/core/sphinx/delay.rs::Delay"]}
{"id": "C12", "title": "Peeling is total and classifies every action code", "statement": "For every packet of the right size and every shared secret, peeling does not panic, and returns: a MAC error iff the header MAC does not match; otherwise, by the first two decrypted bytes, 0..=0xfeff forward to that mixnode, 0xff00 forward to the embedded peer ID, 0xff01 deliver request (or a payload-tag error), 0xff02 deliver reply, 0xff03/0xff04 deliver cover, and a bad-action error for everything above; a mixnode index it produces is always <= 0xfeff.", "quantifier": "every packet byte string of the packet size, every shared secret, every MAC/cipher function", "why_tests_cant": "2^18016 packets.", "anchors": ["src/core/sphinx/peel.rs::peel", "src/core/sphinx/target.rs::MixnodeIndex", "src/core/sphinx/packet.rs"]}
{"id": "C13", "title": "A packet whose header was altered is rejected unless the MAC collides", "statement": "If a packet's header differs from one accepted with the same shared secret only in routing bytes or MAC, it is accepted only if the MAC function maps the altered routing bytes to the MAC it carries; in particular with the routing bytes changed and the MAC kept, acceptance exhibits a MAC collision under that key, and with the MAC changed and routing bytes kept it is always rejected.", "quantifier": "every packet, every alteration, every shared secret", "why_tests_cant": "Tests flip one bit.", "anchors": ["src/core/sphinx/peel.rs::peel", "src/core/sphinx/crypto.rs::mac_ok"]}
{"id": "C14", "title": "A packet once accepted is never processed again in that session (no replay)", "statement": "Once a node has forwarded or delivered a request packet in a session, handling any packet that leads to the same shared secret with that session's key is dropped by that session, after any sequence of further operations, for as long as the session is kept, whether it is the current or the previous one.", "quantifier": "every history of API calls between the two receptions, every packet", "why_tests_cant": "The second reception may come after millions of other packets and a session change; a Bloom filter without false negatives must be shown for all tag sets.", "anchors": ["src/core/replay_filter.rs::ReplayFilter", "src/core/mod.rs::Mixnet::handle_packet", "src/core/mod.rs::Mixnet::set_session_status"]}
{"id": "C15", "title": "The replay filter has no false negatives and starts with no false positives", "statement": "After any sequence of insertions every inserted tag is reported as contained; an insertion never removes another tag; a filter into which nothing was inserted contains no tag; a tag is reported only if each of its probe bits is a probe bit of some inserted tag.", "quantifier": "every sequence of tags (all 2^64), every filter key", "why_tests_cant": "Wrap-around of the 32-bit probe index and bit masks for all tags; tests insert random ones.", "anchors": ["src/core/replay_filter.rs::ReplayFilter::insert", "src/core/replay_filter.rs::ReplayFilter::contains", "src/core/replay_filter.rs::ReplayFilter::tag"]}
{"id": "C16", "title": "A SURB answers at most once", "statement": "After a reply packet carrying a SURB id recognised by the node has been handled, successfully decrypted or not, any later reply packet carrying the same id yields no message unless a new SURB was generated with that same random id in between.", "quantifier": "every history of API calls, every payload", "why_tests_cant": "Histories of arbitrary length.", "anchors": ["src/core/mod.rs::Mixnet::handle_packet", "src/core/surb_keystore.rs::SurbKeystore::entry"]}
{"id": "C17", "title": "SURB key storage is bounded and evicts the oldest first", "statement": "With positive capacity, after any history the node holds keys for at most the configured number of SURBs, and it recognises exactly the most recently created ones that have not been used, up to capacity: a SURB is forgotten only by use or because at least capacity newer ones were created since.", "quantifier": "every sequence of SURB creations and uses, every positive capacity", "why_tests_cant": "Needs the full history of creations and uses.", "anchors": ["src/core/surb_keystore.rs::SurbKeystore::insert", "src/core/surb_keystore.rs::SurbKeystore::entry"]}
{"id": "C18", "title": "Forwarded packets leave in deadline order and none is lost or duplicated", "statement": "In any interleaving of arrivals and pops, next_forward_packet_deadline is the smallest deadline among queued packets (None iff empty), popping returns a packet with that smallest deadline, and the packets popped so far together with those still queued are exactly those enqueued, each once; the queue never exceeds its configured capacity.", "quantifier": "every sequence of insertions and pops, every tie-breaking choice of the heap", "why_tests_cant": "All interleavings and all ties.", "anchors": ["src/core/packet_queues.rs::ForwardPacketQueue", "src/core/mod.rs::Mixnet::pop_next_forward_packet", "src/core/mod.rs::Mixnet::next_forward_packet_deadline"]}
{"id": "C19", "title": "The authored packet queue is FIFO and never exceeds its capacity", "statement": "Posts are all-or-nothing with respect to the space check: a message of n packets is admitted iff n <= capacity and either multiple messages are allowed and len + n <= capacity, or the queue is empty; the two refusals are told apart (never possible / not now); packets leave in the order they were posted; the length never exceeds capacity in any history.", "quantifier": "every history of posts and pops, every configuration", "why_tests_cant": "Histories of arbitrary length.", "anchors": ["src/core/packet_queues.rs::AuthoredPacketQueue", "src/core/mod.rs::Mixnet::post_request", "src/core/mod.rs::Mixnet::post_reply"]}
{"id": "C20", "title": "The space-available event is never missed", "statement": "If a message of some size was refused because the queue was too full and a pop makes it fit, then that pop reports space, and the SPACE_IN_AUTHORED_PACKET_QUEUE event is pending until taken.", "quantifier": "every queue configuration and content, every message size, every history until take_events", "why_tests_cant": "Missing an event stalls the request manager forever; depends on the whole history.", "anchors": ["src/core/packet_queues.rs::AuthoredPacketQueue::pop", "src/core/mod.rs::Mixnet::pop_next_authored_packet", "src/core/mod.rs::Events"]}
{"id": "C21", "title": "Routes never repeat a mixnode unless unavoidable and never pass through the local node", "statement": "A generated route contains no mixnode twice, does not use the local mixnode or the endpoint mixnode as an intermediate hop, with exactly the exceptions forced by having a single connected gateway (a non-mixnode loop whose only connected gateway is both first and penultimate hop; a destination that is the only connected gateway).", "quantifier": "every topology, every connectivity, every route kind, every hop count up to the maximum, every random choice", "why_tests_cant": "Random choices cannot be enumerated by tests.", "anchors": ["src/core/topology.rs::RouteGenerator::gen_route", "src/core/topology.rs::UsedIndices"]}
{"id": "C22", "title": "Routes have the right length and endpoints and always fit a packet", "statement": "A generated route has max(requested hops, minimum needed) hops, never more than 6 when at most 6 are requested; for a non-mixnode it starts at a connected gateway when it starts locally and its penultimate hop is a connected gateway when it ends locally; it ends at the requested mixnode or at the local node; at most one hop, the last, is addressed by peer ID, and then it is the local peer; the listed public keys are those of the hops; no internal fixed-size array overflows.", "quantifier": "every topology, connectivity, route kind with a valid mixnode index, hop count 0..6, random choice", "why_tests_cant": "As above.", "anchors": ["src/core/topology.rs::RouteGenerator::gen_route", "src/core/sphinx/packet.rs::MAX_HOPS"]}
{"id": "C23", "title": "Random mixnode choice is uniform over the allowed mixnodes", "statement": "Choosing a mixnode with an exclusion list maps the equally likely draws one-to-one onto exactly the mixnodes that are not excluded; it fails with TooFewMixnodes iff all are excluded.", "quantifier": "every mixnode count and every sorted duplicate-free exclusion list", "why_tests_cant": "A bijection for all sizes; a statistical test cannot settle it.", "anchors": ["src/core/topology.rs::RouteGenerator::choose_mixnode_index", "src/core/topology.rs::RouteGenerator::choose_destination_index"]}
{"id": "C24", "title": "Gateway choice avoids the other endpoint when it can and is uniform", "statement": "Choosing a connected gateway returns a connected gateway, never the excluded mixnode unless it is the only connected gateway, each other gateway for exactly one draw; it fails with NoConnectedGatewayMixnodes iff there is none.", "quantifier": "every list of distinct connected gateways, every excluded index, every draw", "why_tests_cant": "All lists and draws.", "anchors": ["src/core/topology.rs::RouteGenerator::choose_connected_gateway_index"]}
{"id": "C25", "title": "Reserved peers are exactly the connections a node needs", "statement": "For a mixnode the reserved peers of a session are all other mixnodes of the session, each once, and not the local node; for a non-mixnode they are min(configured, available) distinct mixnodes of the session, and every first hop it uses is among them. The node's reserved peers are those of the current and of the previous session, when these are active, and nothing else.", "quantifier": "every mixnode list, key, gateway count, random sample", "why_tests_cant": "All mixnode sets and samples.", "anchors": ["src/core/topology.rs::Topology::new", "src/core/topology.rs::Topology::reserved_peers", "src/core/mod.rs::Mixnet::reserved_peers"]}
{"id": "C26", "title": "Whether a route can be built does not depend on luck", "statement": "For a fixed topology, connectivity, route kind and hop count, route generation succeeds for all random choices if some admissible route exists, and otherwise fails with the same error for all random choices: NoConnectedGatewayMixnodes exactly if the node is not a mixnode and is connected to none of its gateways, else TooFewMixnodes.", "quantifier": "every topology, connectivity, route kind, hop count, every pair of random streams", "why_tests_cant": "Quantifies over pairs of random streams.", "anchors": ["src/core/topology.rs::RouteGenerator::gen_route"]}
{"id": "C27", "title": "A refused request changes nothing", "statement": "If post_request returns an error, the caller's destination and everything of the node (the outgoing queue of every session, the SURB keys, the sessions, the pending events) is exactly as before the call.", "quantifier": "every node state, session index, destination, message, SURB count, connectivity and random choice", "why_tests_cant": "The failure can occur midway through a multi-fragment message; requires that route failure is independent of random choices.", "anchors": ["src/core/mod.rs::Mixnet::post_request"]}
{"id": "C28", "title": "A posted request is queued completely and addressed to reachable peers", "statement": "If posting a request succeeds, exactly its fragments' packets were appended, in order, to the queue of the requested session, each addressed to the peer ID of a mixnode of that session (a connected gateway if the local node is not a mixnode), the destination written back is a valid mixnode index (the given one if one was given), and one SURB key entry tagged with the message id was created per requested SURB.", "quantifier": "every node state, message, SURB count, connectivity, random choice", "why_tests_cant": "All fragment counts and routes.", "anchors": ["src/core/mod.rs::Mixnet::post_request", "src/core/request_builder.rs::RequestBuilder"]}
{"id": "C29", "title": "Posting a reply consumes exactly the SURBs it uses", "statement": "Posting a reply takes one SURB per fragment from the end of the list; with too few SURBs it refuses before consuming any or queueing anything; on success exactly that many packets are appended; on a bad SURB midway the earlier packets stay queued and the SURBs tried are consumed.", "quantifier": "every node state, message and SURB list", "why_tests_cant": "All combinations of good and bad SURBs.", "anchors": ["src/core/mod.rs::Mixnet::post_reply", "src/core/sphinx/build.rs::complete_reply_packet"]}
{"id": "C30", "title": "Posting is allowed exactly in the sessions and phases documented", "statement": "A post for session index i succeeds in selecting a session iff i is the current index and the phase is at least RequestsToCurrent, or i is current-1 and the phase is before CoverToPrev, and the session's mixnodes are known; otherwise the error tells precisely why: no longer active, not active yet, mixnodes not known, or disabled.", "quantifier": "every current index, phase, requested index and slot contents", "why_tests_cant": "All index pairs including 0 and the u32 maximum.", "anchors": ["src/core/mod.rs::post_session", "src/core/sessions.rs::SessionPhase", "src/core/sessions.rs::RelSessionIndex"]}
{"id": "C31", "title": "Key pairs belong to one session", "statement": "The public key handed out by next_kx_public while the current index is n is used for session n+1 only: after any sequence of status changes it is the key of the slot for index n+1 as long as that slot exists, and no slot for another index ever holds it; jumping past session n+2 or backwards discards it.", "quantifier": "every history of status changes (any indices and phases), key requests and mixnode settings", "why_tests_cant": "Sequences of arbitrary session jumps.", "anchors": ["src/core/mod.rs::Mixnet::set_session_status", "src/core/mod.rs::Mixnet::next_kx_public", "src/core/mod.rs::Mixnet::maybe_set_mixnodes"]}
{"id": "C32", "title": "There is never a previous session at index 0 and no session-index underflow", "statement": "In every reachable state, if the current index is 0 or the phase is DisconnectFromPrev the previous-session slot is disabled, so no API call can panic with a session-index underflow.", "quantifier": "every history of API calls", "why_tests_cant": "All histories, including repeated and backward status changes.", "anchors": ["src/core/mod.rs::Mixnet::set_session_status", "src/core/sessions.rs::RelSessionIndex::add", "src/core/mod.rs::Mixnet::maybe_set_mixnodes", "src/core/mod.rs::Mixnet::handle_packet"]}
{"id": "C33", "title": "Mixnodes are set at most once per session and failures behave as documented", "statement": "maybe_set_mixnodes consults its callback only when the slot is neither disabled nor already set; a transient error changes nothing; a permanent error disables the slot and later calls return immediately; success with more than 65280 mixnodes uses the first 65280; a non-mixnode without non-mixnode configuration disables the slot; otherwise the session is set and both events fire. So mixnodes are set at most once: after a call that did not end in a transient error, no later call for the session with that index consults the callback or changes anything, also when the session has become the previous one, and the session keeps its mixnodes as long as it exists (session indices must not go back).", "quantifier": "every node state, callback result, random choice; every history of calls in between", "why_tests_cant": "All states and callback behaviours.", "anchors": ["src/core/mod.rs::Mixnet::maybe_set_mixnodes"]}
{"id": "C34", "title": "After CoverToPrev nothing authored for the previous session is sent", "statement": "When an authored packet is due, a packet queued for a session is dispatched only if the phase allows requests for that session; queued packets of a session that is not allowed are not sent in that phase; loop-cover slots never take a queued packet; if cover is disabled and no queued packet may be sent, nothing is sent; if cover is enabled, a packet is sent unless no cover route exists in the session picked. The share of loop-cover slots is the configured proportion.", "quantifier": "every node state, phase, random choice", "why_tests_cant": "All states and random draws.", "anchors": ["src/core/mod.rs::Mixnet::pop_next_authored_packet", "src/core/sessions.rs::SessionPhase::allow_requests_and_replies"]}
{"id": "C35", "title": "Change notifications are complete", "statement": "If an operation changes the reserved peers, the next forward deadline, or the mean authored-packet rate, the corresponding event bit is set; bits stay set until taken; taking returns and clears exactly the pending bits.", "quantifier": "every reachable state and every API call, every history between two takes", "why_tests_cant": "A missed notification shows only in some histories.", "anchors": ["src/core/mod.rs::Events", "src/core/mod.rs::Mixnet::take_events"]}
{"id": "C36", "title": "Handling any packet never panics and affects at most one session", "statement": "handle_packet does not panic for any packet in any reachable state; it changes at most one session's replay filter, and only if the local node is a mixnode in it; it never changes queues of authored packets, topology or keys.", "quantifier": "every history, every packet byte string of packet size", "why_tests_cant": "Remote input.", "anchors": ["src/core/mod.rs::Mixnet::handle_packet"]}
{"id": "C37", "title": "A mixnode forwards a packet to the right peer after the right delay", "statement": "When a mixnode handles a packet that its session key peels to a forward action, and it was not seen before and there is room, it queues exactly the peeled packet for the peer of the target with deadline now plus the delay; a non-mixnode never forwards or delivers requests; a full queue drops the packet without marking it as seen.", "quantifier": "every state, packet, time", "why_tests_cant": "All states.", "anchors": ["src/core/mod.rs::Mixnet::handle_packet"]}
{"id": "C38", "title": "End to end: a posted request arrives as posted", "statement": "If a request is posted successfully and each of its packets is handled in turn by the mixnodes of its route (whose keys are those listed in the topology), none having been seen before or dropped, in any order of arrival of the packets at the destination, then the destination returns exactly one request message with the session index, id and data posted, carrying the requested number of SURBs.", "quantifier": "every message, topology, route, arrival order", "why_tests_cant": "Composition of all layers for all inputs; the integration test runs one case.", "anchors": ["src/core/mod.rs::Mixnet::post_request", "src/core/mod.rs::Mixnet::handle_packet", "tests/core.rs"]}
{"id": "C39", "title": "End to end: a reply arrives with the id of the request it answers", "statement": "If the destination posts a reply with the SURBs it received and its packets are handled along their routes, the requester, still holding the SURB keys, returns exactly one reply message with the reply data and the request id under which the SURBs were generated.", "quantifier": "every reply, topology, route, arrival order", "why_tests_cant": "As above.", "anchors": ["src/core/mod.rs::Mixnet::post_reply", "src/core/mod.rs::Mixnet::handle_packet"]}
{"id": "C40", "title": "Requests are never lost or duplicated by the request manager", "statement": "After any history each inserted request is in exactly one place: still managed (once), or returned once by remove, or passed once to handle_post_err, or passed once to handle_retry_limit_reached. handle_post_err is called exactly for the requests for which post_request returned an error other than lack of space in the queue, with that error.", "quantifier": "every history of manager calls, every behaviour of the mixnet and network", "why_tests_cant": "Loss or duplication only appears in some interleavings of posting, retries and session changes.", "anchors": ["src/request_manager/mod.rs::RequestManager"]}
{"id": "C41", "title": "The number of posts per request is bounded and retries are exhausted exactly", "statement": "A request is posted at most num_destinations * num_attempts_per_destination * num_posts_per_attempt times; with successful posts and no removal, it is reported as having reached the retry limit exactly after that many posts.", "quantifier": "every history and configuration with positive attempts and posts", "why_tests_cant": "All histories.", "anchors": ["src/request_manager/mod.rs::RequestManager::retry", "src/request_manager/mod.rs::RequestManager::process_post_queue"]}
{"id": "C42", "title": "The request manager respects its capacity", "statement": "If insert is only called when has_space is true, the number of managed requests never exceeds the configured capacity.", "quantifier": "every history respecting has_space", "why_tests_cant": "All histories.", "anchors": ["src/request_manager/mod.rs::RequestManager::has_space", "src/request_manager/mod.rs::RequestManager::insert"]}
{"id": "C43", "title": "Retries come due in deadline order and the deadline notification is complete", "statement": "The retry queue is always sorted by deadline, next_retry_deadline is its minimum (None iff empty), and whenever it changes next_retry_deadline_changed returns true at the next call.", "quantifier": "every history", "why_tests_cant": "All histories.", "anchors": ["src/request_manager/mod.rs::RequestManager::next_retry_deadline", "src/request_manager/mod.rs::RequestManager::next_retry_deadline_changed", "src/request_manager/mod.rs::RequestManager::pop_next_retry"]}
{"id": "C44", "title": "Queued requests are always bound to the session of their queue", "statement": "In every reachable state each request waiting in the current (previous) session's queue is bound to the current (current-1) index, each in the default queue is unbound, a request is bound iff it has a destination, and the queues of sessions in which requests are not allowed are empty; hence no internal assertion fails.", "quantifier": "every history of calls and session status changes", "why_tests_cant": "All histories of session changes.", "anchors": ["src/request_manager/mod.rs::RequestManager::update_session_status", "src/request_manager/mod.rs::RequestManager::process_post_queue", "src/request_manager/post_queues.rs"]}
{"id": "C45", "title": "A message id is used for one destination in one session only", "statement": "Between two posts of the same request with the same message id, the destination and session are the same; whenever the destination or session changes a fresh random message id is drawn.", "quantifier": "every history", "why_tests_cant": "All histories.", "anchors": ["src/request_manager/mod.rs::RequestState::new_destination", "src/request_manager/mod.rs::RequestManager::retry", "src/request_manager/mod.rs::RequestManager::update_session_status"]}
{"id": "C46", "title": "Processing the post queues terminates and stops only when full", "statement": "process_post_queues terminates for every mixnet behaviour; afterwards each post queue is empty unless its last post attempt was refused for lack of space (or the session does not exist yet).", "quantifier": "every state, every behaviour of post_request", "why_tests_cant": "Termination for every state.", "anchors": ["src/request_manager/mod.rs::RequestManager::process_post_queue", "src/request_manager/mod.rs::RequestManager::process_post_queues"]}
{"id": "C47", "title": "A request is handled at most once while remembered", "statement": "Once insert has handed out a request id, it does not hand it out again until the id has been abandoned or evicted, whatever repeats arrive.", "quantifier": "every history of reply manager calls", "why_tests_cant": "All histories.", "anchors": ["src/reply_manager.rs::ReplyManager::insert", "src/reply_manager.rs::ReplyManager::abandon", "src/reply_manager.rs::ReplyManager::complete"]}
{"id": "C48", "title": "The reply manager's memory is bounded and evicts oldest first", "statement": "The number of remembered requests never exceeds the configured capacity; eviction removes the one inserted longest ago.", "quantifier": "every history, every capacity including 0", "why_tests_cant": "All histories.", "anchors": ["src/reply_manager.rs::ReplyManager::maybe_evict", "src/reply_manager.rs::ReplyManager::insert", "src/reply_manager.rs::ReplyManager::complete"]}
{"id": "C49", "title": "Repeats are answered with the same reply, no more often than the cooldown", "statement": "A completed request's repeats are answered only with the cached reply (same reply id and data), only if at least the cooldown has passed since the last posting, at most max_posts copies each time, and not beyond the SURBs provided with the repeat; completing twice does nothing.", "quantifier": "every history, times, configurations", "why_tests_cant": "All histories and times.", "anchors": ["src/reply_manager.rs::ReplyManager::insert", "src/reply_manager.rs::ReplyManager::complete", "src/reply_manager.rs::ReplyContext::post_reply"]}
{"id": "C50", "title": "The round-trip estimate covers all its parts", "statement": "The metrics of a posted request report hop counts and delays that are at least those of every one of its packets plus every one of its SURBs, and the estimated round-trip time is at least the forwarding delay, queue delay, handling delay and hop count times per-hop delay, and monotone in each.", "quantifier": "every request, durations", "why_tests_cant": "All routes and durations.", "anchors": ["src/core/mod.rs::RequestMetrics::estimate_rtt", "src/core/mod.rs::Mixnet::post_request"]}
{"id": "C51", "title": "Sending rate is kept constant across session changeover", "statement": "With one active session the mean delay is its period, doubled while the previous session should also be active; with two, the overall rate is the sum of half the sessions' rates and a session is picked with probability proportional to its rate; the delay is None iff no session is active; the delay never exceeds ten times the mean.", "quantifier": "every pair of periods and phase; exact rational arithmetic instead of floating point", "why_tests_cant": "All periods.", "anchors": ["src/core/mod.rs::Mixnet::next_authored_packet_delay", "src/core/mod.rs::Mixnet::pop_next_authored_packet"]}
{"id": "C52", "title": "All admissible routes are equally likely", "statement": "If some admissible route exists, the generated route is uniformly distributed over all admissible routes of the requested kind and length (no mixnode or gateway is favoured, at any position or in combination): the equally likely outcomes of the bounded random draws correspond one to one to the admissible routes.", "quantifier": "every topology, connectivity, route kind with a destination in range, requested number of hops up to 6, every random stream", "why_tests_cant": "Uniformity is a statement about all outcomes of the random draws at once; a sampled test sees frequencies of a few outcomes in one topology.", "anchors": ["src/core/topology.rs: RouteGenerator::gen_route, choose_mixnode_index, choose_connected_gateway_index"]}
{"id": "C53", "title": "A request is not retried before its replies are overdue", "statement": "For every waiting request the retry deadline is no earlier than the estimated arrival of the reply to any of its posts (time of posting plus estimated round trip), and is exactly the latest such estimate (or the manager's creation time if that is later); a request waiting for a retry has been posted at least once.", "quantifier": "every history of request manager calls and mixnet answers in which the message identifiers drawn are distinct", "why_tests_cant": "All histories of inserts, posts, retries, session changes and replies.", "anchors": ["src/request_manager/mod.rs::RequestManager::process_post_queue", "src/core/mod.rs::RequestMetrics::estimate_rtt", "src/request_manager/mod.rs::RequestManager::pop_next_retry"]}
{"id": "C54", "title": "No call panics with a sane configuration", "statement": "With at most six hops, a non-empty SURB keystore, non-zero packet periods and a loop cover proportion below one, a node can be created and no call of its API panics in any state it can reach, whatever packets, replies, SURBs, session changes, connectivity, clock readings and random numbers it is given, provided destinations given to post_request exist; except that post_request with SURBs panics if a random 16-byte SURB ID it draws is that of a SURB still waiting for its reply; this can happen only if 16 bytes of the random numbers given equal such an ID or occur twice among them.", "quantifier": "every configuration within the limits, every reachable state, every call with arguments of the right sizes, all random numbers", "why_tests_cant": "Absence of panics is a statement about all states, inputs and random draws; the code has about forty debug assertions, expects and slice indexings.", "anchors": ["src/core/mod.rs::Mixnet", "src/core/surb_keystore.rs::SurbKeystore::insert", "src/core/topology.rs::RouteGenerator::gen_route", "src/core/sphinx/build.rs::build_header", "src/core/request_builder.rs::RequestBuilder"]}
{"id": "C55", "title": "Whether a post is accepted, and if not why, is predictable", "statement": "The answer of post_request is a function of the size of the message, the number of SURBs, the configuration, the session phase, the session's mixnodes, the gateways connected and the queue: too many fragments, else the documented session error, else no space (for now or ever), else no connected gateway or too few mixnodes exactly if no admissible route exists, else success. Random numbers do not matter. For post_reply: the same up to the queue, then the first unusable SURB among those needed, taken from the end of the list, decides.", "quantifier": "every reachable state, every message, destination, connectivity and random stream", "why_tests_cant": "The claim is that the answer does not depend on the random draws and is characterised for every topology and queue state.", "anchors": ["src/core/mod.rs::Mixnet::post_request", "src/core/mod.rs::Mixnet::post_reply", "src/core/request_builder.rs::RequestBuilder::new", "src/core/topology.rs::RouteGenerator::gen_route", "src/core/packet_queues.rs::AuthoredPacketQueue::check_space"]}
{"id": "C56", "title": "No random number is used twice in a request", "statement": "If posting a request succeeds, the numbers drawn from the random number generator split into disjoint consecutive parts, each used for one purpose: the destination (if it was to be chosen), then for every packet its route, for every SURB in it the 16 bytes of its ID, its route back, its ephemeral key and header padding, and its 32-byte reply secret, then the ephemeral key and padding of the packet. So no key, ID or route of a message is derived from numbers that another one is derived from, and each is determined by its part.", "quantifier": "every reachable state, every request that is accepted, all random streams", "why_tests_cant": "Reuse of randomness is invisible in the outputs of single runs; the claim is about the dependence of every output on every position of the stream, for all numbers of fragments and SURBs.", "anchors": ["src/core/request_builder.rs::RequestBuilder::build_packet", "src/core/sphinx/build.rs::build_surb", "src/core/sphinx/build.rs::complete_request_packet", "src/core/topology.rs::RouteGenerator::gen_route"]}
{"id": "C57", "title": "A request manager used with a node never panics", "statement": "Create a node with a sane configuration and a request manager allowing at least one attempt per destination and one post per attempt, and use them together in any order: any calls on the node as long as session indices never decrease, any calls on the manager with that node, inserting only when has_space says so. Then no call of the manager panics, neither in the manager nor in the node, whatever the random numbers, clock readings, timeouts and retries; except that a randomly drawn SURB ID may repeat one that is waiting (or one drawn before it in the same request), in which case 16 bytes of the random stream are the ID of a waiting SURB or occur twice. The condition on session indices is needed: after going back to an earlier index with fewer mixnodes, a retry to the destination chosen before panics.", "quantifier": "every history of a manager and a node used together, every request, clock, random stream and network status", "why_tests_cant": "A retry re-uses a destination and session chosen arbitrarily long before, while sessions begin and end in between; the claim is that no interleaving makes this stale.", "anchors": ["src/request_manager/mod.rs::RequestManager::insert", "src/request_manager/mod.rs::RequestManager::update_session_status", "src/request_manager/mod.rs::RequestManager::process_post_queues", "src/request_manager/mod.rs::RequestManager::pop_next_retry", "src/core/mod.rs::Mixnet::post_request"]}
{"id": "C58", "title": "A reply manager used with a node never panics", "statement": "Create a node and a reply manager and use them together in any order: any calls on the node, any calls on the manager with that node (inserting requests, repeated or not, abandoning, completing, even contexts that were evicted or completed already). Then no call of the manager panics, neither in the manager nor in the node, whatever the SURBs (valid or not), data sizes, capacities, clock and random numbers.", "quantifier": "every history of a reply manager and a node used together, every request, context, reply, clock and random stream", "why_tests_cant": "SURBs come from other nodes and may be arbitrary bytes; the assertion on the number of entries kept must hold after every interleaving of inserts, evictions, abandons and completions.", "anchors": ["src/reply_manager.rs::ReplyManager::insert", "src/reply_manager.rs::ReplyManager::abandon", "src/reply_manager.rs::ReplyManager::complete", "src/reply_manager.rs::ReplyManager::maybe_evict", "src/core/mod.rs::Mixnet::post_reply"]}
{"id": "C59", "title": "The queue-delay estimate is conservative and grows with the queues", "statement": "The queue delay in the metrics of a posted request is computed for the packets waiting after the call (including those of the request) and a full queue at the far end. In exact arithmetic the estimate exceeds the mean time for both queues to empty, at the halved rate and without loop cover packets, by almost five mean intervals of the slower queue; it grows by at least the mean time of a packet for every packet more; it is symmetric in the two queues (so that it does not matter which branch is taken when the periods are equal), proportional to the periods and to 1/(1 - loop cover proportion), and has the two special cases a comment in the code claims. It is not monotone in the periods.", "quantifier": "all periods, queue lengths and cover proportions below 1 (real numbers); every reachable state and accepted request for the connection with post_request", "why_tests_cant": "Inequalities between real-valued formulas for all periods and lengths.", "anchors": ["src/core/mod.rs::estimate_authored_packet_queue_delay", "src/core/mod.rs::RequestMetrics", "src/core/mod.rs::Mixnet::post_request"]}
{"id": "C60", "title": "Fragments have exactly the documented bytes", "statement": "The fragments of a posted request or reply are a function of the message ID, the data and the SURBs alone: as many as the least number that holds everything (at most 9 SURBs and 2025 bytes of data and SURBs each), numbered from 0, each with message ID, last index, own index, data size and number of SURBs in little-endian, as much data as fits beside the SURBs of the fragment, zeros in between, and the SURBs stacked from the end. No byte of a fragment comes from anywhere else, so nothing left over in a buffer is sent.", "quantifier": "every message ID, data (however scattered), list of SURBs, node state, random stream and network status for which posting succeeds", "why_tests_cant": "Data sizes, SURB counts and the way data is scattered are unbounded, and all bytes of all fragments must be right for interoperability.", "anchors": ["src/core/fragment.rs::fragment_blueprints", "src/core/fragment.rs::FragmentBlueprint::write_except_surbs", "src/core/fragment.rs::FragmentBlueprint::surbs", "src/core/mod.rs::Mixnet::post_request", "src/core/mod.rs::Mixnet::post_reply"]}
{"id": "C61", "title": "Packets and SURBs have exactly the documented bytes", "statement": "Request packets, reply packets, cover packets, SURBs and forwarded packets consist of exactly the bytes the format prescribes: public key of the packet, MAC over the masked actions including the padding the hop will see, actions nested hop by hop and masked with the keystream of each shared secret, filler up to the fixed size, payload with 16 zero bytes as tag encrypted for each hop (for replies, decrypted once with the secret in the SURB), and SURBs as first hop, header, secret. They depend on the route, the payload, the ephemeral key, the filler and (for SURBs) the secret alone, whatever was in the buffers. What a hop forwards is a function of the packet it got and the shared secret.", "quantifier": "every valid path of up to 6 hops, payload, identifier, random stream and old buffer content; every reachable node state and call for the packets a node queues or sends", "why_tests_cant": "The layers depend on the number of hops and on where a peer ID is among them; every byte must be right for every combination or other implementations reject the packet.", "anchors": ["src/core/sphinx/build.rs::build_header", "src/core/sphinx/build.rs::complete_request_packet", "src/core/sphinx/build.rs::build_surb", "src/core/sphinx/build.rs::complete_reply_packet", "src/core/sphinx/build.rs::build_cover_packet", "src/core/sphinx/peel.rs::peel", "src/core/sphinx/packet.rs"]}
{"id": "C62", "title": "What is posted cannot be told from when packets are sent", "statement": "With cover packets enabled and possible, two histories of a node that differ only in what its user posts (whether, when, how many requests and replies, to whom, with what content) look the same from outside: the same packets are forwarded in the same order, a packet of the node's own is sent at exactly the same opportunities, the same keys are announced; and afterwards the deadline for forwarding, the distribution of the delay to the next opportunity and the reserved peers are the same. Packets arriving from the network are handled alike in both as far as forwarding and replay protection are concerned, although SURB keys and incomplete messages may differ.", "quantifier": "every reachable node state, every two histories of well-typed calls of any length that agree on the calls other than post_request, post_reply and take_events, with the same random draws for those", "why_tests_cant": "It relates pairs of unbounded histories; a test compares single outputs.", "anchors": ["src/core/mod.rs::Mixnet::pop_next_authored_packet", "src/core/mod.rs::Mixnet::next_authored_packet_delay", "src/core/mod.rs::Mixnet::post_request", "src/core/mod.rs::Mixnet::post_reply", "src/core/mod.rs::Mixnet::handle_packet", "src/core/cover.rs::gen_cover_packet"]}
{"id": "C63", "title": "A posted packet is sent when it is its session's turn", "statement": "As long as a session exists, the packets posted in it are sent one after the other, in the order in which they were queued: whenever a packet is due (pop_next_authored_packet) and the random draws give the opportunity to that session and not to loop cover traffic, and the session phase allows requests and replies, the packet at the head of its queue is what is sent. The packet at position k of the queue is thus sent at the session's k-th turn from now; at no other time does a packet leave the queue, and what is posted later goes behind.", "quantifier": "every configuration meeting the documented limits, every reachable node state, every history of well-typed calls of any length during which the session exists, every random draws", "why_tests_cant": "It covers every interleaving of posts, arrivals, session changes and draws over unbounded histories.", "anchors": ["src/core/mod.rs::Mixnet::pop_next_authored_packet", "src/core/packet_queues.rs::AuthoredPacketQueue", "src/core/sessions.rs::Sessions"]}
{"id": "C64", "title": "A relay holds a packet at most ten times the mean forwarding delay", "statement": "A packet that handle_packet accepts for forwarding at time now gets a deadline between now and now plus ten times the configured mean forwarding delay; the deadline depends on nothing but now, the configured mean and the secret shared with the packet's sender. Hence if all packets of a history arrived by time t, every packet still queued at its end is due by t plus ten times the mean, and next_forward_packet_deadline says so. The delay is the sample the generator seeded with the derived delay seed (written twice) gives, or ten if that is less.", "quantifier": "every reachable node state, every packet of the right size, every arrival time, every history of well-typed calls", "why_tests_cant": "It is about every shared secret (every sample of the delay distribution) and every history; a test sees a few samples of a distribution with a rare tail.", "anchors": ["src/core/sphinx/delay.rs::Delay::exp", "src/core/sphinx/delay.rs::Delay::to_duration", "src/core/mod.rs::Mixnet::handle_packet", "src/core/mod.rs::Mixnet::next_forward_packet_deadline"]}
{"id": "C65", "title": "A request waiting in the request manager is never stranded", "statement": "If the request manager is told of every change of the session status (update_session_status after set_session_status) and process_post_queues is called whenever SPACE_IN_AUTHORED_PACKET_QUEUE was reported, then whenever requests wait in one of the manager's post queues, they wait for something that will come: the first session has not begun, or packets of the user are queued in the session for which they wait (so that sending one of them reports space), and the session phase allows requests in that session; otherwise the event is still to be reported or to be followed by process_post_queues.", "quantifier": "every configuration of node and manager, every interleaving of calls of the node and of the manager in which the manager is told of a status change before the next one, every random draws and clock readings", "why_tests_cant": "It ranges over every interleaving of inserts, retries, removals, session changes, sends and arrivals over unbounded histories.", "anchors": ["src/request_manager/mod.rs::RequestManager::insert", "src/request_manager/mod.rs::RequestManager::process_post_queues", "src/request_manager/mod.rs::RequestManager::update_session_status", "src/request_manager/mod.rs::RequestManager::pop_next_retry", "src/core/mod.rs::Mixnet::pop_next_authored_packet", "src/core/packet_queues.rs::AuthoredPacketQueue::pop"]}
{"id": "C66", "title": "A request is tried at a bounded number of destinations", "statement": "A request inserted once into a request manager is posted with at most num_destinations different message ids plus one for each change of the session status the manager learned of; hence (message ids being random and different) to at most that many destinations. Each message id is used for at most num_attempts_per_destination * num_posts_per_attempt posts. Conversely a request reported to handle_retry_limit_reached has been tried with at least num_destinations different message ids.", "quantifier": "every configuration, every history of calls with every mixnet, random draws and clock readings, every request", "why_tests_cant": "It ranges over every interleaving of inserts, retries, removals and session changes over unbounded histories.", "anchors": ["src/request_manager/mod.rs::RequestManager::retry", "src/request_manager/mod.rs::RequestManager::update_session_status", "src/request_manager/mod.rs::RequestState::new_destination", "src/request_manager/config.rs::Config"]}
{"id": "C67", "title": "Requests are first posted in the order of insertion", "statement": "If a request was inserted into a request manager (once) before another one, then whenever the other one is successfully posted, the first has been posted already, unless it was removed or given up because of an error; whatever session changes, retries and lack of space come between.", "quantifier": "every configuration, every history of calls with every mixnet, random draws and clock readings, every two requests", "why_tests_cant": "It ranges over every interleaving of inserts, retries, removals, session changes and refusals over unbounded histories.", "anchors": ["src/request_manager/mod.rs::RequestManager::insert", "src/request_manager/mod.rs::RequestManager::process_post_queue", "src/request_manager/mod.rs::RequestManager::update_session_status", "src/request_manager/post_queues.rs::PostQueues"]}
{"id": "C68", "title": "The default configuration goes together", "statement": "The default configuration of a node (with any keys and any number of gateways) is within the documented limits, so that together with the default configuration of the request manager nothing panics; with it a message is of the allowed size exactly if it has at most 225 SURBs and 50625 bytes, 222 less for each SURB; and in general, if the queues of both kinds of session can hold the largest allowed message, as they can by default, then a request or reply is refused for its size exactly if it is larger than allowed (or has too few SURBs), whatever the session, and for want of space only if something is queued in the session. All SURBs of a posted request are remembered if they are not more than the keystore can hold. By default a request is posted at most 12 times, and exactly 12 times if given up for reaching the retry limit.", "quantifier": "all keys and numbers of gateways, every reachable state of a node, every session, message, number of SURBs, connectivity and random draws; every history of a request manager", "why_tests_cant": "The defaults of two modules and the limits of a third must agree for every message size, session kind and queue content.", "anchors": ["src/core/config.rs::Config", "src/request_manager/config.rs::Config", "src/core/mod.rs::Mixnet::post_request", "src/core/mod.rs::Mixnet::post_reply", "src/core/packet_queues.rs::AuthoredPacketQueue::check_space"]}
{"id": "C69", "title": "Sessions that are over are forgotten", "statement": "When the session status changes, whatever a node holds for the sessions that are not kept (key pair, mixnodes, queued packets, replay filter) is gone: two nodes that differ in nothing else are in the same state afterwards, so nothing the node does from then on depends on the keys of these sessions or on what was queued or seen in them. A session is kept only if the index goes forward by at most two and it is then the next, the current or the still needed previous one.", "quantifier": "every node state, every change of index and phase, every set of sessions, every later history of calls", "why_tests_cant": "It is a non-interference property: a statement about pairs of states, all status changes and all later histories.", "anchors": ["src/core/mod.rs::Mixnet::set_session_status", "src/core/sessions.rs::Sessions", "src/core/kx_pair.rs::KxPair"]}
{"id": "C70", "title": "A packet to be forwarded leaves in time", "statement": "Once a time has passed, every call of pop_next_forward_packet takes away one of the packets that were due by that time, until there are none left, whatever else happens meanwhile. So a packet leaves when the user has asked, since its deadline passed, as often as there were packets with the same or an earlier deadline, and at the latest after asking as often as the capacity of the queue: packets that arrive later never delay it.", "quantifier": "every reachable state, every packet queued, every history of calls in which packets are handled only at later times, every tie-breaking choice of the heap", "why_tests_cant": "A liveness bound over every interleaving of arrivals, pops and other calls.", "anchors": ["src/core/packet_queues.rs::ForwardPacketQueue", "src/core/mod.rs::Mixnet::pop_next_forward_packet", "src/core/mod.rs::Mixnet::handle_packet"]}
{"id": "C71", "title": "A reply settles the request it is a reply to, for good", "statement": "If the random message ids are different: `remove`, called with the message id of a reply, returns the request that was posted with it and no other; it returns a request inserted once exactly if that request is still in the manager and the id is the one it was last given, so that a reply to the current try always settles the request and a late reply to an earlier one changes nothing. Once a request has left the manager (removed, failed or given up) it is never posted, reported or returned again unless it is inserted again.", "quantifier": "every history of calls of a request manager (with any mixnet, times and random draws), every request and message id, every continuation", "why_tests_cant": "The claims range over all histories and continuations, including session changes and retries at other destinations between the post and the reply.", "anchors": ["src/request_manager/mod.rs::RequestManager::remove", "src/request_manager/mod.rs::RequestManager::pop_next_retry", "src/request_manager/mod.rs::RequestManager::insert", "src/request_manager/mod.rs::RequestState"]}
{"id": "C72", "title": "Secrets for different purposes are derived independently", "statement": "Blinding factors, MAC keys, actions encryption keys, delay seeds, payload encryption keys, MACs and replay tags are all computed with one hash function, but never from the same call: for any values one may want for them, as functions of the shared secret (and of the public key, the message or the filter's key), some hash function gives all these values at once. So if the hash function behaves like a random one, the secrets are independent of each other.", "quantifier": "all shared secrets, public keys, messages, filter keys and all families of wanted values", "why_tests_cant": "A statement about all inputs and all hash functions; a test sees one hash function, for which secrets look independent even if, say, two of them were derived with the same parameters for some inputs.", "anchors": ["src/core/sphinx/crypto.rs::derive_kx_blinding_factor", "src/core/sphinx/crypto.rs::derive_secret", "src/core/sphinx/crypto.rs::SmallDerivedSecrets", "src/core/sphinx/crypto.rs::derive_payload_encryption_key", "src/core/sphinx/crypto.rs::compute_mac", "src/core/replay_filter.rs::ReplayFilter::tag"]}
{"id": "C73", "title": "In a whole network, everything delivered was posted", "statement": "Let any number of machines use nodes in any way, and let the network between them lose, delay, reorder, duplicate and misdeliver packets (but not forge them). Then every request a machine gets was posted to it earlier: by some machine, in the session the request claims, to a mixnode that is this machine, with the same message id and the same data, and it comes with exactly as many SURBs as were asked for, every one of them made for this request (perhaps for different posts of it). Every reply a machine gets answers a request that this machine posted, has the data of a reply posted by the machine to which that request was posted, and was sent with a SURB made for that request.", "quantifier": "every network (number of machines, sessions, keys, which machine is which mixnode), every history of calls at all machines and all orders, losses, duplications and misdeliveries of packets, in which message ids and SURB ids are not reused for something else and no packet can be opened by two machines", "why_tests_cant": "It is about every interleaving of any number of nodes with an arbitrary network, including repeated posts of a message whose fragments get mixed, and all contents; tests run a few nodes on a few schedules.", "anchors": ["src/core/mod.rs::Mixnet::handle_packet", "src/core/mod.rs::Mixnet::post_request", "src/core/mod.rs::Mixnet::post_reply", "src/core/fragment.rs::FragmentAssembler::insert", "src/core/sphinx/peel.rs::peel", "src/core/surb_keystore.rs::SurbKeystore"]}
{"id": "C74", "title": "In a whole network, a request is delivered at most as often as it was posted", "statement": "Under the same conditions, and if no machine goes back to an earlier session, the number of times a machine gets a request with a certain message id is at most the number of times a request with that id was posted to it, no matter how often the network duplicates packets, when, and whether the machine changes sessions in between.", "quantifier": "as C73; every machine and every message id", "why_tests_cant": "Exactly-once arguments depend on the replay filters of all sessions a node goes through, on eviction in the fragment assembler and on every duplication schedule.", "anchors": ["src/core/mod.rs::Mixnet::handle_packet", "src/core/replay_filter.rs::ReplayFilter", "src/core/sessions.rs::Sessions", "src/core/fragment.rs::FragmentAssembler::insert"]}
{"id": "C75", "title": "A request gets no more replies than SURBs were made for it", "statement": "Whatever packets arrive, genuine or forged, duplicated or in any order, the number of reply messages a node returns for a request id is at most the number of SURBs asked for in the accepted posts with that message id; and one less for every SURB made for it that the node still remembers. A request posted without SURBs never gets a reply.", "quantifier": "every configuration, every history of well-typed calls of any length, every message id", "why_tests_cant": "It is an invariant over all histories of posts, evictions and arriving packets, including forged and replayed ones.", "anchors": ["src/core/mod.rs: Mixnet::handle_packet, Mixnet::post_request", "src/core/surb_keystore.rs: SurbKeystore::insert, entry, RemoveEntry"]}
{"id": "C76", "title": "Requests handled and replies received are what programs asked and answered, through managers, nodes and network", "statement": "In a network of machines, each with a node, a request manager and a reply manager, where packets may be lost, delayed, reordered, duplicated and misdelivered: (a) whatever a reply manager's insert gives a program to handle is a request that was inserted before into the request manager of some machine and posted by it to this very machine under the message id of the context, with unaltered data and as many SURBs as the request asked for. (b) Every reply a node delivers has the data that some program gave to complete for a request that was handed out to it, and that request was inserted at the machine where the reply is delivered. (c) When the request manager's remove, called with the message id a delivered reply claims to answer, returns a request, the reply is an answer to that very request.", "quantifier": "every number of machines, every layout of keys and mixnodes, every history of calls of nodes and managers of any length, every network behaviour; supposing random ids and SURBs do not repeat and no packet can be opened by two machines", "why_tests_cant": "It composes three state machines per machine over all interleavings of all machines with an unreliable network; tests run a few interleavings of one or two nodes.", "anchors": ["src/request_manager/mod.rs: RequestManager::insert, remove, process_post_queues", "src/reply_manager.rs: ReplyManager::insert, complete, ReplyContext::post_reply", "src/core/mod.rs: Mixnet::handle_packet, post_request, post_reply, pop_next_authored_packet, pop_next_forward_packet"]}
{"id": "C77", "title": "A network of machines with managers never gets stuck or panics", "statement": "In every state that a network of machines with nodes, request managers and reply managers can reach, every permitted call of any node or reply manager at any machine succeeds, and so does every call of any request manager (insert only when has_space) unless a random SURB id repeats; and what has happened then is again such a history, to which all the properties of whole networks apply.", "quantifier": "every reachable state of a network of any size, every machine, every well-typed permitted call, all random numbers and clocks", "why_tests_cant": "Absence of panics must hold for every reachable combined state, where each manager runs on a node that the other manager and the network have changed.", "anchors": ["src/core/mod.rs: Mixnet (all methods)", "src/request_manager/mod.rs: RequestManager (all methods)", "src/reply_manager.rs: ReplyManager (all methods)"]}
{"id": "C78", "title": "A request is handled by few machines, and by each of them once while remembered", "statement": "However the network duplicates packets and however the request manager retries: all hand-outs with one message id are of one request, in one session, at one machine, with the same data; a second hand-out with the same message id happens only if in between the program abandoned the request or the reply manager got at least capacity calls about other requests; and the number of different machines that handle a request is at most (configured destinations + session status updates) times the number of its insertions.", "quantifier": "every history of a network of machines with managers, of any length, every request and message id; supposing random ids and SURBs do not repeat and no packet can be opened by two machines", "why_tests_cant": "It bounds the effects of retries and duplication over all schedules of all machines.", "anchors": ["src/request_manager/mod.rs: RequestManager::process_post_queue, pop_next_retry, update_session_status", "src/reply_manager.rs: ReplyManager::insert, abandon, maybe_evict"]}
{"id": "C79", "title": "A message is reassembled under load: only enough other messages since its last fragment can drop it", "statement": "However much other traffic a node gets in total: if between two fragments of a message that arrive one after the other at most K other messages get fragments, where max_incomplete_messages is at least K + 1 and max_incomplete_fragments at least K * (max_fragments_per_message - 1) plus the fragments of the message but one (82 for the default configuration and any message), the message is handed out exactly once, on its last fragment, whatever the order. At a node: after a packet has brought a fragment of a message, no call before the node has handled K further packets drops what is stored of it: it stays, grows by a fragment, or is handed out complete.", "quantifier": "every reachable receiver or node, every message, order of fragments and stream of other packets (of any length and content, also duplicates and invalid ones), every limit K", "why_tests_cant": "The adversary chooses the interleaving and the other fragments; that eviction never hits a message that is still within the allowance is a property of every history.", "anchors": ["src/core/fragment.rs: FragmentAssembler::insert, maybe_evict, need_eviction", "src/core/config.rs: Config::max_incomplete_messages, max_incomplete_fragments, max_fragments_per_message", "src/core/mod.rs: Mixnet::handle_packet"]}
{"id": "C80", "title": "The replay filter takes few fresh packets for replays", "statement": "Whatever has been inserted: after n insertions at most the share (n / 2^23)^2 of the 2^64 possible tags is reported as contained, so a packet with a random tag that was not seen before is dropped as a replay with at most this probability (below 1% for 800 000 packets; 0 after none). At a node: for every session, with n the number of packets the node was given since it was made.", "quantifier": "every sequence of inserted tags of any length, chosen adversarially; every reachable node, session and history of calls", "why_tests_cant": "The unit test measures the rate for one seed and one set of random tags; the bound is for every set of inserted tags, also those an attacker chooses, and every number of them.", "anchors": ["src/core/replay_filter.rs: ReplayFilter::insert, contains", "src/core/mod.rs: Mixnet::handle_packet"]}
{"id": "C81", "title": "A request waiting in the request manager is tried when it is its turn", "statement": "A request in the default queue behind k others has been tried (posted, or refused for another reason than lack of space) or removed once process_post_queues has been called k + 1 times with no packets of the user left in the session; whatever is inserted, removed, retried meanwhile, and however the session status changes. So after insert, as many such calls as the manager's capacity suffice. For requests bound to a session (retries and repeated posts) the same holds while the session status stays, counting only the calls at which no request in the default queue waits for that session: those are served first, and a steady stream of new requests can hold the others up.", "quantifier": "every manager, every history of calls of any length with any nodes, every position in a queue", "why_tests_cant": "Bounded waiting is a statement about every schedule of insertions, retries, removals, session changes and lack of space.", "anchors": ["src/request_manager/mod.rs: RequestManager::process_post_queue, process_post_queues, insert, retry, update_session_status, remove", "src/core/packet_queues.rs: AuthoredPacketQueue::check_space"]}
{"id": "C82", "title": "A request put into a request manager is answered, by way of the network and a reply manager", "statement": "When a call of a request manager posts a request successfully to a mixnode under some message ID: as many packets as the message has fragments are in the node's queue, each finds its way to that mixnode, and the node keeps the keys of their SURBs (unless more SURBs were made in that one call than the keystore holds). Once the packets have arrived, in any order, the node there delivers exactly the request's data, with that message ID and as many SURBs as asked for; its reply manager, if it does not keep that message ID, hands the request out. If the program completes it, then for every copy of the reply that is posted successfully, the packets are queued and each finds its way back; once they have arrived in any order, the first node delivers the program's reply, with the message ID of the post. That message ID, given to the request manager, returns the request, if it is still managed and was not given a new ID since.", "quantifier": "every use of managers and nodes, every request type, network, random numbers, order of arrival, other traffic and calls meanwhile, every number of copies and of fragments", "why_tests_cant": "The exchange passes through two managers, three kinds of nodes and the packet format; it must hold for all sizes, routes and interleavings with other traffic.", "anchors": ["src/request_manager/mod.rs: RequestManager::insert, process_post_queues, remove", "src/reply_manager.rs: ReplyManager::insert, complete", "src/core/mod.rs: Mixnet::post_request, post_reply, handle_packet"]}
{"id": "C83", "title": "Cover packets take the routes that requests take", "statement": "A packet returned by pop_next_authored_packet that was not taken from a queue (a cover packet) leaves every queue as it is, is addressed to a mixnode of its session, is relayed by every mixnode on its way that takes it and has room, and ends after at most five further hops at a random mixnode other than the sender (and other than its only gateway), or, for loop cover traffic, back at the sender; the node that gets it there, in whatever state, reports no message and does not change. A drop cover packet and the first packet of a request to a random destination made, in the same state, of the same random numbers take exactly the same route: same first peer, same peer after every hop, same destination. So nobody can tell the one kind from the other by where packets go.", "quantifier": "all reachable states of the sender, all random draws, network states and message contents; all networks, all reachable states of every relay and of the final node, all relaying histories", "why_tests_cant": "The statement compares the route of every possible cover packet with the route of a request for every topology, set of connected gateways and stream of random numbers; a test sees single routes. A bias (another exclusion rule, another route kind or order of draws for cover packets) shows only in the distribution.", "anchors": ["src/core/cover.rs: gen_cover_packet", "src/core/request_builder.rs: RequestBuilder::new, build_packet", "src/core/mod.rs: Mixnet::pop_next_authored_packet, post_request, handle_packet", "src/core/topology.rs: RouteGenerator"]}
{"id": "C84", "title": "The cryptographic primitives fit together as the protocol needs", "statement": "With X25519, BLAKE2b, ChaCha20, LIONESS and f64 delays as the code uses them: a public key derived from any 32 secret bytes is the coordinate of a multiple of the base point of Curve25519, and is never all zeros; two parties that exchange public keys get the same secret, which is not all zeros either; blinding a public key and multiplying the secret by the blinding factor lead to the same key, in any order and any number of times; different secrets have different public keys up to sign and the order of the group; every payload of 32 bytes or more survives encryption followed by decryption (and decryption followed by encryption) with any key, at its length, and every byte of it goes through the four rounds of the cipher; derived keys and MACs have the sizes that the packet format fixes; delays are totally ordered, and rounding preserves the order of sums and of durations. So what the other properties assume of the primitives is true.", "quantifier": "all secret keys, blinding factors, public keys on the curve, payloads, payload keys, messages, delays and units", "why_tests_cant": "Test vectors check a few points. That the ladder computes multiples in a group, for all scalars and all points including the special cases of the formulas, rests on the primality of 2^255-19 and of the group order and on the group law; a single bad carry or special case is missed by random tests.", "anchors": ["src/core/sphinx/crypto.rs: derive_kx_public, blind_kx_public, derive_kx_shared_secret, gen_kx_public_and_shared_secrets, derive_secret, compute_mac, apply_actions_encryption_keystream, encrypt_payload, decrypt_payload", "src/core/sphinx/delay.rs: Delay::to_duration, Add, Ord", "src/core/replay_filter.rs: ReplayFilter::tag"]}
{"id": "C85", "title": "A hop cannot tell from a header where on the path it is or how long the path is", "statement": "Every hop that peels a packet finds its own action first and, if it forwards, the MAC of the header it hands on. Everything else it reads when it unmasks the actions is one-time padded with bytes of the keystreams of the hops before and after it (for the last hop: the random filler): for every path of up to 6 hops, every position, and whatever the rest of the keystreams is, each possible value of those bytes arises from exactly one choice of the padding bytes, none of which belong to the hop's own keystream. Hence for any two paths with the same secret and action at some hop, of different lengths and with the hop at different positions, the MAC and actions that arrive can be exactly the same, given the keystreams and MACs of the other hops.", "quantifier": "all valid paths (1 to 6 hops, at most one peer ID target), packet kinds, secret keys with distinct derived keys per hop, fillers, positions, keystreams, and values of the bytes read", "why_tests_cant": "Hiding is a statement about all keystreams and all values at once (a bijection between random bytes and what is read); a test sees one packet.", "anchors": ["src/core/sphinx/build.rs: build_header", "src/core/sphinx/peel.rs: peel", "src/core/sphinx/crypto.rs: apply_actions_encryption_keystream"]}
{"id": "C86", "title": "The queue delay estimate computed in f64 is within nanoseconds of its formula and still covers the mean", "statement": "The queue delay in the metrics of a posted request is computed in floating point with the periods rounded to nanoseconds first. For every loop cover proportion below 1, all periods and queue lengths, the mean interval between packets is computed to the nearest nanosecond but for six rounding errors; the estimate differs from the documented 99.995th-percentile formula by at most a relative 2 ns per shorter period plus eighty rounding errors of 2^-53, and half a nanosecond, whichever branch the comparison of the rounded periods takes; and if there are fewer packets than the longer period has nanoseconds it is never below the mean time for the packets waiting plus a full queue at the far end.", "quantifier": "all f64 proportions in [0,1), periods up to 2^53 s (2^93 ns per packet), queue lengths (up to 2^40 packets for the mean), reachable nodes and posts", "why_tests_cant": "Rounding errors and the branch on rounded periods depend on every input; a test compares a few of them.", "anchors": ["src/core/mod.rs: estimate_authored_packet_queue_delay", "src/core/mod.rs: RequestMetrics"]}
{"id": "C87", "title": "Sending delays and the choice between sessions survive floating-point rounding", "statement": "next_authored_packet_delay and the choice of the session in pop_next_authored_packet are computed in f64. For every state of the node and every sample, the delay is the exact one (sample capped at ten, times the mean for the active sessions) to the nearest nanosecond but for twelve rounding errors, and it is missing or panics exactly when the exact value is missing or undefined (two periods of zero). The probability with which the current session is chosen, a quotient of rounded numbers, is never above 1, so the random number generator never rejects it, and the session chosen is the one that the exact share of the rates says except for at most 2^14 of the 2^64 values of the draw.", "quantifier": "all node states with periods below 2^94 ns, samples that are 0 or at least 2^-100, and random draws", "why_tests_cant": "Rounding depends on every pair of periods; the panic on a probability above 1 would need a pair for which the quotient is rounded the wrong way, which tests cannot exclude.", "anchors": ["src/core/mod.rs: next_authored_packet_delay", "src/core/mod.rs: pop_next_authored_packet"]}
{"id": "C88", "title": "The queue delay in the metrics is seldom exceeded", "statement": "The authored packet queue delay in the metrics of a posted request is meant to be exceeded seldom. After a successful post_request, let the node and another one (with a session of the period, queue capacity and cover share the estimate assumes) send packets with independent random draws: exponential waits between opportunities (next_authored_packet_delay) and random bits for pop_next_authored_packet. Then the time until all packets that wait in the session of the request are sent, plus the time until all that wait at the other node are sent, exceeds the delay in the metrics with probability at most 1/134 if the periods are within a factor 3/2 of each other or the faster queue is not too long in comparison, and at most 1/33 if no more than 50 packets wait at each, whatever else happens at the nodes meanwhile (other requests, replies, arriving packets; sessions must not change). Without such a condition it is not a bound of this kind: for long queues with very different periods it adds to the mean only a small part of a standard deviation.", "quantifier": "all reachable states of two nodes, requests, cover shares, periods from 1 ms, queues of up to 9000 packets together, and interleavings with other calls; probability over all draws", "why_tests_cant": "A probability below one percent over unboundedly many random draws can only be sampled by tests, and it must hold for all queue lengths and periods; the estimate is an f64 formula fitted to data.", "anchors": ["src/core/mod.rs: estimate_authored_packet_queue_delay", "src/core/mod.rs: post_request", "src/core/mod.rs: next_authored_packet_delay", "src/core/mod.rs: pop_next_authored_packet"]}
{"id": "C89", "title": "Round-trip estimates and retry deadlines are bounded by the configuration", "statement": "The round-trip estimate returned with a posted request is never absurd: whatever the topology, the random numbers and the packets waiting, its forwarding delay is at most ten means per relay there and back (plus a nanosecond of rounding), its queue delay at most the estimate for full queues, its number of hops at most twice the larger of the configured number and two, so the estimate is at most a constant of the configuration plus the handling delay. It follows that in any history of a request manager and a node used together, if nothing was posted after time t then every request waiting for its reply, and the next retry deadline reported, is due by t plus that constant; with the default configuration the constant is 248.495068740 s plus the handling delay.", "quantifier": "all reachable states, topologies, random streams, requests and histories of calls of the manager and the node", "why_tests_cant": "The bound must hold for the worst random draws, routes and queue contents, all computed in f64, and over unbounded histories in which deadlines are combined over posts, attempts, destinations and sessions.", "anchors": ["src/core/mod.rs: RequestMetrics::estimate_rtt", "src/core/mod.rs: post_request", "src/core/mod.rs: estimate_authored_packet_queue_delay", "src/core/sphinx/delay.rs: Delay", "src/request_manager/mod.rs: process_post_queue", "src/request_manager/mod.rs: next_retry_deadline"]}
{"id": "C90", "title": "Packets go over declared connections", "statement": "If the application never asks a node to send to itself (a destination given for a request is another mixnode; replies are posted only where the node is a mixnode, with SURBs whose first hop is another one) and at least two hops are configured, every packet returned by pop_next_authored_packet (request, reply or cover) is addressed to one of the peers reserved_peers lists at that moment; whatever the application does, it is addressed to a mixnode of the current or previous session. A packet handed over for forwarding is addressed to a listed reserved peer, to the node itself, or to the peer ID written in the packet. On every route generated (for requests, SURBs and cover packets) each hop is reached over a connection of this kind: consecutive hops are different mixnodes, or the local non-mixnode and one of its connected gateways, unless the other end is the node itself or its only connected gateway.", "quantifier": "all histories of calls, topologies, network statuses, random streams and packets", "why_tests_cant": "Packets wait in the queues across rotations and topology changes, and the routes are random; the existing test only asserts connectivity in one simulated network with well-behaved users.", "anchors": ["src/core/topology.rs: reserved_peers", "src/core/topology.rs: gen_route", "src/core/mod.rs: reserved_peers", "src/core/mod.rs: pop_next_authored_packet", "src/core/mod.rs: handle_packet", "tests/core.rs: is_connected"]}
{"id": "C91", "title": "Time computations do not overflow", "statement": "If every configured time is at most 136 years, at least one packet in a hundred is not loop cover, and the queues have room for at most a million packets, then no computation with f64 numbers, Durations and Instants overflows or yields a value that is not a time: the estimate of the time a request's packets spend in queues, its total forwarding delay, its round-trip estimate and the deadline for the next try; the delay and the deadline of a packet that is forwarded; and the delay until the next authored packet, whatever is drawn from the exponential distribution (because samples are capped at ten).", "quantifier": "all moderate configurations, reachable nodes, posted requests, forwarded packets, samples of the exponential distribution, clock values up to 2^61 seconds, and histories of a request manager used with a node", "why_tests_cant": "Duration::from_secs_f64 and the operators panic only for extreme products of configuration, queue length and sample, which random tests do not meet; the claim is about all of them.", "anchors": ["src/core/mod.rs: estimate_authored_packet_queue_delay", "src/core/mod.rs: RequestMetrics::estimate_rtt", "src/core/mod.rs: next_authored_packet_delay", "src/core/sphinx/delay.rs: Delay::exp, Delay::to_duration", "src/request_manager/mod.rs: process_post_queue"]}
{"id": "C92", "title": "A packet whose payload was altered on the way is dropped", "statement": "If someone on the way alters the payload of a packet but not its header, every further hop forwards it to the same peer with the same deadline, with an altered payload again; and at its destination an altered request packet is dropped without any effect on the node, an altered reply packet yields nothing and only uses up its SURB. The last claim holds for all but a share of 2^-128 of the permutations the payload cipher could be with the key in question, among those that treat the original payload as the cipher does.", "quantifier": "all packets, alterations of the payload, hops, reachable nodes and sessions; all permutations of payloads, counted", "why_tests_cant": "A test tries a few alterations with one key; the claim is about every alteration, and the share of ciphers with which one passes can only be counted, not sampled.", "anchors": ["src/core/sphinx/peel.rs: peel, decrypt_reply_payload, check_payload_tag", "src/core/sphinx/crypto.rs: decrypt_payload, encrypt_payload", "src/core/mod.rs: Mixnet::handle_packet"]}
{"id": "C93", "title": "Nodes need not change phase at the same moment", "statement": "The four phases of a session exist so that nodes may be slightly out of step. Provided a node never goes back to an earlier stage (session index, phase): once it has the mixnodes of a session it keeps the session, with its keys and its mixnodes, until it disconnects from it, that is up to and including the third phase of the next session, and from then on the session is gone. A node takes and sends requests and replies in a session only from the session's second phase to the second phase of the next session. Hence while one node posts or sends in a session, every other node that is at most one phase ahead or behind is in the session, and if it had the session it still has it.", "quantifier": "all pairs of reachable nodes with any configurations, all their histories whose stages never decrease (stages may be skipped), all sessions, posts and authored packets", "why_tests_cant": "The claim relates two nodes with independent histories; a test fixes one interleaving of their phase changes.", "anchors": ["src/core/sessions.rs: SessionPhase", "src/core/mod.rs: Mixnet::set_session_status", "src/core/mod.rs: Mixnet::pop_next_authored_packet", "src/core/mod.rs: Mixnet::post_request, Mixnet::post_reply"]}
{"id": "C94", "title": "Forged and altered headers are rejected", "statement": "Somebody sends a node packets of their own making, having seen MACs of other headers. A packet is forged if, in each of the node's sessions, its MAC would be checked against a pair of key and routing field for which no MAC was seen. For all but a share of 2 * 2^-128 of the MAC functions that agree with everything seen, the node drops a forged packet and nothing at all changes; with any number n of tries, one after another, all but a share of 2n * 2^-128. In particular the routing field of a packet cannot be changed, even if its MAC may be changed as well; and if only the MAC is changed, the packet is always rejected. Packets whose MACs were seen are handled with all those functions as with the actual one.", "quantifier": "all reachable nodes, sets of seen MACs, packets and sequences of packets, times; all functions from 16-byte keys and 140-byte routing fields to 16-byte MACs, counted", "why_tests_cant": "A test tries a few forgeries against one MAC function; the share of functions with which some forgery passes can only be counted.", "anchors": ["src/core/sphinx/peel.rs: peel", "src/core/sphinx/crypto.rs: mac_ok, compute_mac", "src/core/mod.rs: Mixnet::handle_packet"]}
{"id": "C95", "title": "The bytes a relay sends on say nothing about the packet they come from", "statement": "Apart from the blinded public key (32 bytes), a packet handed on has 2220 bytes: MAC, routing field and payload. Consider the keystream and the payload permutation that a relay derives from its shared secret with a packet's sender as unknown. For every packet with a right MAC, every target an action can name and every 2220 bytes, the share of keystreams and permutations with which the packet is handed on to that target as exactly those bytes is the same (it depends only on the size of the action). Hence, if two packets go in and two come out, exactly as many choices lead to the first that came out being the first that went in as to its being the second.", "quantifier": "all packets and pairs of packets with right MACs, secrets with different derived keys, targets and outgoing bytes; all keystreams and permutations of payloads, counted", "why_tests_cant": "Equality of likelihoods is a statement about all keystreams, permutations and outgoing bytes together; a test sees one of each.", "anchors": ["src/core/sphinx/peel.rs: peel", "src/core/sphinx/crypto.rs: apply_actions_encryption_keystream, decrypt_payload", "src/core/mod.rs: Mixnet::handle_packet"]}
{"id": "C96", "title": "A node's memory is bounded by its configuration", "statement": "Whatever packets arrive and whatever calls are made, in any order, everything of variable size that a node keeps - packets to be forwarded, packets queued for the current and the previous session, fragments of incomplete messages, and the ids and keys of SURBs - has together at most 2252 * (forward_packet_queue_capacity + 2 * the larger of the two session queue capacities) + 2048 * max_incomplete_fragments + 1184 * surb_keystore.capacity bytes (about 5 MB with the default configuration). There are at most max_incomplete_messages * max_fragments_per_message places for fragments, and at most two sessions with at most 65280 mixnodes each. Every packet kept, and every packet handed out to be sent, has exactly 2252 bytes.", "quantifier": "every configuration with num_hops at most 6, every history of calls with arbitrary packets, requests, replies and answers", "why_tests_cant": "The bound must hold after every history, including hostile traffic and eviction in every order; a test sees a few histories.", "anchors": ["src/core/mod.rs: handle_packet, post_request, post_reply, pop_next_authored_packet", "src/core/packet_queues.rs", "src/core/surb_keystore.rs", "src/core/fragment.rs: FragmentAssembler", "src/core/config.rs"]}
{"id": "C97", "title": "A reply comes within the estimated round-trip time", "statement": "Posting a request returns metrics. Suppose one of its packets is sent after waiting some time in the queue and reaches the destination; there a reply is posted within the assumed handling time; and a packet of the reply is sent after waiting and reaches the requester. If each hop takes less than the configured per_hop_net_delay apart from the time for which relays hold the packet, and the two waits in the queues are together no longer than the queue delay of the metrics, then the packet of the reply arrives no later than estimate_rtt says - counting the exact durations for which the relays' queues hold both packets, with all rounding of delays to floating point and to nanoseconds.", "quantifier": "every reachable requester, replier and relays, every request and reply, every route, every random stream, every SURB of the request, every time at which packets are handled", "why_tests_cant": "The estimate must cover every choice of random delays and routes, and the rounding of up to ten separately rounded delays against one rounded total.", "anchors": ["src/core/mod.rs: RequestMetrics::estimate_rtt, post_request, handle_packet", "src/core/request_builder.rs: build", "src/core/sphinx/delay.rs: Delay", "src/core/packet_queues.rs: ForwardPacketQueue"]}
{"id": "C98", "title": "A request is not posted again before a timely reply", "statement": "A request manager has posted a request, at some time, with the estimates it was given then. Suppose a packet of the request and a packet of a reply to it travel as in C97: each hop takes less than the configured per_hop_net_delay, the destination no longer than the handling delay the manager was told, and the waits in the queues together no longer than the estimated queue delay. Then in every history of the manager that has this post in its log, if the request still waits for a retry, it is not due before that packet of the reply has arrived: a manager whose retries are popped when due never posts a request again although its reply is on time.", "quantifier": "every configuration, every interleaved history of manager and node, every request and reply, every route, every random stream with distinct message ids, every later history of the manager", "why_tests_cant": "The deadline is computed from rounded floating point delays, by code in three places (node, metrics, manager), and must cover every route and random delay.", "anchors": ["src/request_manager/mod.rs: process_post_queue, next_retry_deadline, pop_next_retry", "src/core/mod.rs: RequestMetrics::estimate_rtt, post_request, handle_packet"]}
{"id": "C99", "title": "A request waiting for a retry is left alone until it is due", "statement": "A request waits in a request manager for a retry. As long as the user does not remove it, and calls pop_next_retry only when the time returned by next_retry_deadline has come, then until its own deadline it goes on waiting, unchanged, and the manager does not even try to post a message with its id, whatever else is called: other requests inserted, removed, posted, retried or given up, sessions changed, queues processed, in any order and with the mixnet in any state.", "quantifier": "every history of a manager, every waiting request, every later history before the deadline of the request, every mixnet and random stream with distinct message ids", "why_tests_cant": "It ranges over all interleavings of calls and states of the queues of the manager; a retry of another request or a change of sessions moves requests between the queues.", "anchors": ["src/request_manager/mod.rs: next_retry_deadline, pop_next_retry, retry, process_post_queue, insert, remove, update_session_status"]}
{"id": "C100", "title": "No request stays in the request manager for ever", "statement": "Let num_destinations and num_attempts_per_destination be as configured, L the longest estimate of a round trip that the configuration allows (C89), and suppose that the user pops retries at most delta after the time next_retry_deadline returns, that there is room in the mixnet for the posts of a request, and that it is not inserted again. Then at most num_destinations * num_attempts_per_destination * (L + delta) later the manager no longer holds the request: it was removed (answered), or its error or retry limit handler was called. This holds whatever else is done with the manager and the node, also when sessions change.", "quantifier": "every configuration, every interleaved history of manager and node, every request, every delta, all random numbers, every topology and change of sessions", "why_tests_cant": "It bounds the time over all histories, all estimates of the round-trip time and all interleavings with other requests and session changes.", "anchors": ["src/request_manager/mod.rs: insert, retry, pop_next_retry, next_retry_deadline, process_post_queue", "src/core/mod.rs: RequestMetrics::estimate_rtt"]}
{"id": "C101", "title": "A relay mixes packets", "statement": "Two packets to be forwarded arrive at a mixnode, the second d after the first, with d at most seven times the configured mean forwarding delay mu. If the generators seeded with the delay seeds of the two packets yield independent exponential samples (up to the precision of f64), then: with probability at least 1 - 1.01 exp(-d/mu) the first is due by the time the second arrives; with probability at least 0.49 exp(-d/mu) each, the first is not yet due then and leaves (pop_next_forward_packet) before the second, or is not yet due and leaves after the second, whatever else happens at the node in between and afterwards. These three exclude each other. So whoever sees packets arrive and leave learns almost nothing, from the order in which two packets that wait at the same time leave, about the order in which they came. The same for any number k of packets (up to one per thousand nanoseconds of mu) that arrived by some time t, none more than 7 mu before: for each of them, the probability that none is due by t and it is the next of them to leave is at least 0.98/k times the product of exp(-age/mu) over all of them, which is about 1/k of the probability that none is due.", "quantifier": "every configuration with a mean forwarding delay from a microsecond to 1.5 hours, every reachable state of the node, all pairs of packets, all times, every history between and after their arrivals", "why_tests_cant": "It is about a probability over all samples, and for all histories of the node around the two packets; a test has a few samples and one history.", "anchors": ["src/core/sphinx/delay.rs: Delay::exp, to_duration", "src/core/mod.rs: handle_packet, pop_next_forward_packet", "src/core/packet_queues.rs: ForwardPacketQueue::insert, pop", "src/core/sphinx/peel.rs: peel"]}
{"id": "C102", "title": "Delays and waits are exponentially distributed with the configured means", "statement": "Let mu be the configured mean forwarding delay. The time from a packet's arrival to the time at which it is due to be forwarded depends on nothing but its seed; if the generator seeded with it yields an exponential sample (up to the precision of f64), then that time has the mean mu (1 - exp(-10)), to within a nanosecond, and it exceeds t (less than 10 mu) with probability exp(-t/mu), to within a nanosecond in t. Likewise, the wait returned by next_authored_packet_delay has the mean (1 - exp(-10)) times the mean period of C51, to within one part in 2^47. So the configured means are what one gets, less 0.005%.", "quantifier": "every configuration with a mean forwarding delay up to 1.5 hours, every reachable state of the node, every packet, all times; every state of the sessions", "why_tests_cant": "It is about expectations and distributions, over all samples and in every state.", "anchors": ["src/core/sphinx/delay.rs: Delay::exp, to_duration", "src/core/mod.rs: handle_packet, next_authored_packet_delay", "src/core/config.rs: mean_forwarding_delay, mean_authored_packet_period"]}
