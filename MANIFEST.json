{
 "claims": [
  {
   "property": "C01",
   "status": "proved",
   "theorems": [
    "Mixnet.Props.roundtrip",
    "Mixnet.Props.roundtrip_interleaved",
    "Mixnet.Props.sent_exists",
    "Mixnet.Props.sent_length_least",
    "Mixnet.Props.sent_whole"
   ],
   "note": "single message exact limits; with other traffic when there is room for the whole stream"
  },
  {
   "property": "C02",
   "status": "proved",
   "theorems": [
    "Mixnet.Props.split_refuses_iff",
    "Mixnet.Props.split_exact"
   ],
   "note": ""
  },
  {
   "property": "C03",
   "status": "proved",
   "theorems": [
    "Mixnet.Props.reassembly_bounded"
   ],
   "note": ""
  },
  {
   "property": "C04",
   "status": "proved",
   "theorems": [
    "Mixnet.Props.reassembly_no_panic"
   ],
   "note": ""
  },
  {
   "property": "C05",
   "status": "proved",
   "theorems": [
    "Mixnet.Props.reassembly_provenance",
    "Mixnet.Props.reassembly_completes_with",
    "Mixnet.Props.reassembly_never_holds_whole"
   ],
   "note": ""
  },
  {
   "property": "C06",
   "status": "proved",
   "theorems": [
    "Mixnet.Props.reassembly_rejects",
    "Mixnet.Props.reassembly_evicts_first",
    "Mixnet.Props.reassembly_completion_keeps_others",
    "Mixnet.Props.reassembly_recency_order"
   ],
   "note": ""
  },
  {
   "property": "C07",
   "status": "proved",
   "theorems": [
    "Mixnet.Props.scattered_len_toVec",
    "Mixnet.Props.scattered_splitAt",
    "Mixnet.Props.scattered_splitAt_panics",
    "Mixnet.Props.scattered_copyToSlice"
   ],
   "note": ""
  },
  {
   "property": "C08",
   "status": "proved",
   "theorems": [
    "Mixnet.Props.request_packet_travels"
   ],
   "note": ""
  },
  {
   "property": "C09",
   "status": "proved",
   "theorems": [
    "Mixnet.Props.reply_packet_travels"
   ],
   "note": ""
  },
  {
   "property": "C10",
   "status": "proved",
   "theorems": [
    "Mixnet.Props.cover_packet_travels",
    "Mixnet.Props.cover_does_nothing"
   ],
   "note": ""
  },
  {
   "property": "C11",
   "status": "proved",
   "theorems": [
    "Mixnet.Props.request_packet_travels",
    "Mixnet.Props.reply_packet_travels",
    "Mixnet.Props.cover_packet_travels",
    "Mixnet.Props.delay_depends_on_secret_only"
   ],
   "note": ""
  },
  {
   "property": "C12",
   "status": "proved",
   "theorems": [
    "Mixnet.Props.peel_total",
    "Mixnet.Props.peel_index_in_range"
   ],
   "note": ""
  },
  {
   "property": "C13",
   "status": "proved",
   "theorems": [
    "Mixnet.Props.tampered_header_rejected",
    "Mixnet.Props.tampered_payload_detected",
    "Mixnet.Props.reply_payload_checked",
    "Mixnet.Props.tampered_reply_detected"
   ],
   "note": ""
  },
  {
   "property": "C14",
   "status": "proved",
   "theorems": [
    "Mixnet.Props.no_replay",
    "Mixnet.Props.request_accepted",
    "Mixnet.Props.session_kept"
   ],
   "note": "request_accepted is the non-vacuity side: what is not a replay and not dropped for another reason is accepted"
  },
  {
   "property": "C15",
   "status": "proved",
   "theorems": [
    "Mixnet.Props.filter_contains_iff",
    "Mixnet.Props.filter_no_false_negatives",
    "Mixnet.Props.filter_fresh",
    "Mixnet.Props.filter_insert",
    "Mixnet.Props.filter_tag"
   ],
   "note": ""
  },
  {
   "property": "C16",
   "status": "proved",
   "theorems": [
    "Mixnet.Props.surb_answers_once"
   ],
   "note": ""
  },
  {
   "property": "C17",
   "status": "proved",
   "theorems": [
    "Mixnet.Props.surbs_remembered"
   ],
   "note": ""
  },
  {
   "property": "C18",
   "status": "proved",
   "theorems": [
    "Mixnet.Props.forward_step",
    "Mixnet.Props.forward_conservation",
    "Mixnet.Props.forward_deadline",
    "Mixnet.Props.forward_bounded",
    "Mixnet.Props.forwards_unique"
   ],
   "note": ""
  },
  {
   "property": "C19",
   "status": "proved",
   "theorems": [
    "Mixnet.Props.authored_fifo",
    "Mixnet.Props.request_admission",
    "Mixnet.Props.reply_admission",
    "Mixnet.Props.authored_bounded"
   ],
   "note": ""
  },
  {
   "property": "C20",
   "status": "proved",
   "theorems": [
    "Mixnet.Props.space_event",
    "Mixnet.Props.reply_space_event",
    "Mixnet.Props.request_space_event",
    "Mixnet.Props.keeps_runs"
   ],
   "note": "for a session that exists throughout the history; if a session is destroyed and re-created its queue is emptied without an event (finding in DESIGN.md)"
  },
  {
   "property": "C21",
   "status": "proved",
   "theorems": [
    "Mixnet.Props.route_no_repeats"
   ],
   "note": ""
  },
  {
   "property": "C22",
   "status": "proved",
   "theorems": [
    "Mixnet.Props.route_shape",
    "Mixnet.Props.route_exists_iff"
   ],
   "note": ""
  },
  {
   "property": "C23",
   "status": "proved",
   "theorems": [
    "Mixnet.Props.choose_mixnode_uniform",
    "Mixnet.Props.choose_destination_uniform"
   ],
   "note": ""
  },
  {
   "property": "C24",
   "status": "proved",
   "theorems": [
    "Mixnet.Props.choose_gateway_uniform",
    "Mixnet.Props.view_gateways_nodup"
   ],
   "note": ""
  },
  {
   "property": "C25",
   "status": "proved",
   "theorems": [
    "Mixnet.Props.reserved_peers_exact",
    "Mixnet.Props.is_mixnode_iff",
    "Mixnet.Props.first_hop_reserved",
    "Mixnet.Props.node_reserved_peers"
   ],
   "note": ""
  },
  {
   "property": "C26",
   "status": "proved",
   "theorems": [
    "Mixnet.Props.route_exists_iff"
   ],
   "note": ""
  },
  {
   "property": "C27",
   "status": "proved",
   "theorems": [
    "Mixnet.Props.request_refused"
   ],
   "note": ""
  },
  {
   "property": "C28",
   "status": "proved",
   "theorems": [
    "Mixnet.Props.request_posted"
   ],
   "note": ""
  },
  {
   "property": "C29",
   "status": "proved",
   "theorems": [
    "Mixnet.Props.reply_posted",
    "Mixnet.Props.reply_refused",
    "Mixnet.Props.reply_too_few_surbs"
   ],
   "note": ""
  },
  {
   "property": "C30",
   "status": "proved",
   "theorems": [
    "Mixnet.Props.request_session",
    "Mixnet.Props.reply_session"
   ],
   "note": ""
  },
  {
   "property": "C31",
   "status": "proved",
   "theorems": [
    "Mixnet.Props.status_keys",
    "Mixnet.Props.key_history",
    "Mixnet.Props.key_constant",
    "Mixnet.Props.next_key",
    "Mixnet.Props.session_key"
   ],
   "note": ""
  },
  {
   "property": "C32",
   "status": "proved",
   "theorems": [
    "Mixnet.Props.no_previous_session",
    "Mixnet.Props.no_index_underflow"
   ],
   "note": ""
  },
  {
   "property": "C33",
   "status": "proved",
   "theorems": [
    "Mixnet.Props.set_mixnodes",
    "Mixnet.Props.permanent_error_sticks",
    "Mixnet.Props.set_once",
    "Mixnet.Props.mixnodes_stay"
   ],
   "note": ""
  },
  {
   "property": "C34",
   "status": "proved",
   "theorems": [
    "Mixnet.Props.authored_dispatch",
    "Mixnet.Props.not_allowed_not_sent",
    "Mixnet.Props.no_cover_no_packet",
    "Mixnet.Props.authored_odds"
   ],
   "note": ""
  },
  {
   "property": "C35",
   "status": "proved",
   "theorems": [
    "Mixnet.Props.notified",
    "Mixnet.Props.notified_history",
    "Mixnet.Props.take_events"
   ],
   "note": ""
  },
  {
   "property": "C36",
   "status": "proved",
   "theorems": [
    "Mixnet.Props.handle_packet_safe"
   ],
   "note": ""
  },
  {
   "property": "C37",
   "status": "proved",
   "theorems": [
    "Mixnet.Props.forwards_packet",
    "Mixnet.Props.full_queue_drops",
    "Mixnet.Props.unknown_target_drops",
    "Mixnet.Props.non_mixnode_only_replies"
   ],
   "note": ""
  },
  {
   "property": "C38",
   "status": "proved",
   "theorems": [
    "Mixnet.Props.request_arrives"
   ],
   "note": "Any reachable requester, relays and destination; routes as generated; relaying is a step of any reachable mixnode holding the listed key; packets in any order with anything else in between that does not touch the stored fragments of the message."
  },
  {
   "property": "C39",
   "status": "proved",
   "theorems": [
    "Mixnet.Props.reply_arrives"
   ],
   "note": "Any SURBs of the request, any replier with the same mixnode list; the requester must still hold the SURB keys when each packet arrives."
  },
  {
   "property": "C40",
   "status": "proved",
   "theorems": [
    "Mixnet.Props.no_request_lost",
    "Mixnet.Props.given_up_iff_refused",
    "Mixnet.Props.remove_returns"
   ],
   "note": ""
  },
  {
   "property": "C41",
   "status": "proved",
   "theorems": [
    "Mixnet.Props.posts_bounded",
    "Mixnet.Props.exhausted_exactly",
    "Mixnet.Props.posted_less_still_managed"
   ],
   "note": ""
  },
  {
   "property": "C42",
   "status": "proved",
   "theorems": [
    "Mixnet.Props.has_space_iff",
    "Mixnet.Props.capacity_respected"
   ],
   "note": "insert without space is a failed debug assertion, i.e. no step"
  },
  {
   "property": "C43",
   "status": "proved",
   "theorems": [
    "Mixnet.Props.retry_queue_sorted",
    "Mixnet.Props.next_deadline_earliest",
    "Mixnet.Props.pop_retries_earliest",
    "Mixnet.Props.deadline_changes_announced"
   ],
   "note": ""
  },
  {
   "property": "C44",
   "status": "proved",
   "theorems": [
    "Mixnet.Props.requests_bound",
    "Mixnet.Props.panics_only_in_mixnet"
   ],
   "note": ""
  },
  {
   "property": "C45",
   "status": "proved",
   "theorems": [
    "Mixnet.Props.id_one_destination"
   ],
   "note": "assumes the random message ids drawn are different"
  },
  {
   "property": "C46",
   "status": "proved",
   "theorems": [
    "Mixnet.Props.post_loop_ends",
    "Mixnet.Props.queues_processed"
   ],
   "note": ""
  },
  {
   "property": "C47",
   "status": "proved",
   "theorems": [
    "Mixnet.Props.handed_out_iff",
    "Mixnet.Props.handed_out_once",
    "Mixnet.Props.remembered_until_evicted"
   ],
   "note": ""
  },
  {
   "property": "C48",
   "status": "proved",
   "theorems": [
    "Mixnet.Props.memory_bounded",
    "Mixnet.Props.evicts_oldest",
    "Mixnet.Props.abandon_forgets"
   ],
   "note": ""
  },
  {
   "property": "C49",
   "status": "proved",
   "theorems": [
    "Mixnet.Props.repeat_answered",
    "Mixnet.Props.repeat_ignored",
    "Mixnet.Props.completes_once",
    "Mixnet.Props.answers_spaced",
    "Mixnet.Props.copies_surbs",
    "Mixnet.Props.reply_panics_only_in_mixnet"
   ],
   "note": "time since the last posting is the saturating difference, as in the code"
  },
  {
   "property": "C50",
   "status": "proved",
   "theorems": [
    "Mixnet.Props.metrics_cover",
    "Mixnet.Props.estimate_covers"
   ],
   "note": "the queue-delay formula (f64) is an opaque function here; its properties are C59, C86 and C88"
  },
  {
   "property": "C51",
   "status": "proved",
   "theorems": [
    "Mixnet.Props.mean_period",
    "Mixnet.Props.delay_capped",
    "Mixnet.Props.no_delay",
    "Mixnet.Props.session_share",
    "Mixnet.Props.authored_odds"
   ],
   "note": "exact rationals instead of f64; the exponential sample is an arbitrary non-negative number"
  },
  {
   "property": "C52",
   "status": "proved",
   "theorems": [
    "Mixnet.Props.routes_equally_likely"
   ],
   "note": "uniform in the sense of a bijection between the equally likely sequences of bounded draws and the admissible routes"
  },
  {
   "property": "C53",
   "status": "proved",
   "theorems": [
    "Mixnet.Props.retry_when_overdue"
   ],
   "note": "under the hypothesis that the random message identifiers drawn are distinct"
  },
  {
   "property": "C54",
   "status": "proved",
   "theorems": [
    "Mixnet.Props.no_panic"
   ],
   "note": "debug build (debug assertions count as panics); the examples show each condition is needed"
  },
  {
   "property": "C55",
   "status": "proved",
   "theorems": [
    "Mixnet.Props.request_answer",
    "Mixnet.Props.reply_answer",
    "Mixnet.Props.request_always_answered"
   ],
   "note": "hypothesis: a destination given by the caller exists in the session (otherwise the call panics, see findings)"
  },
  {
   "property": "C56",
   "status": "proved",
   "theorems": [
    "Mixnet.Props.fresh_randomness"
   ],
   "note": "the generator is an arbitrary stream of numbers; the bytes of packets and SURBs are given exactly as a function of which numbers are used; distributions of the numbers themselves are not modelled"
  },
  {
   "property": "C57",
   "status": "proved",
   "theorems": [
    "Mixnet.Props.manager_no_panic"
   ],
   "note": "hypothesis: session indices never decrease; an example shows that otherwise a retry may panic"
  },
  {
   "property": "C58",
   "status": "proved",
   "theorems": [
    "Mixnet.Props.reply_manager_no_panic"
   ],
   "note": ""
  },
  {
   "property": "C59",
   "status": "proved",
   "theorems": [
    "Mixnet.Props.queue_delay_symmetric",
    "Mixnet.Props.queue_delay_exceeds_mean",
    "Mixnet.Props.queue_delay_grows",
    "Mixnet.Props.queue_delay_scales",
    "Mixnet.Props.queue_delay_special",
    "Mixnet.Props.queue_delay_not_monotone",
    "Mixnet.Props.posted_queue_delay",
    "Mixnet.Props.posted_queue_delay_covers"
   ],
   "note": "real numbers in place of f64; how often it is exceeded: C88"
  },
  {
   "property": "C60",
   "status": "proved",
   "theorems": [
    "Mixnet.Props.request_on_the_wire",
    "Mixnet.Props.reply_on_the_wire"
   ],
   "note": "messageFragments is defined in Spec/Wire.lean from the documented format"
  },
  {
   "property": "C61",
   "status": "proved",
   "theorems": [
    "Mixnet.Props.request_packet_bytes",
    "Mixnet.Props.surb_bytes",
    "Mixnet.Props.cover_packet_bytes",
    "Mixnet.Props.reply_packet_bytes",
    "Mixnet.Props.forwarded_bytes",
    "Mixnet.Props.request_on_the_wire",
    "Mixnet.Props.reply_on_the_wire",
    "Mixnet.Props.cover_on_the_wire",
    "Mixnet.Props.forward_on_the_wire"
   ],
   "note": "the primitives (X25519, BLAKE2, ChaCha20, LIONESS) are abstract functions; the format is defined in Spec/Wire.lean"
  },
  {
   "property": "C62",
   "status": "proved",
   "theorems": [
    "Mixnet.Props.posting_unobservable",
    "Mixnet.Props.cover_possible_mixnode"
   ],
   "note": "the times of the calls and the random draws of the other calls are inputs, the same in both histories; that the bytes of cover, request and reply packets look alike is a property of the ciphers and not modelled"
  },
  {
   "property": "C63",
   "status": "proved",
   "theorems": [
    "Mixnet.Props.sent_in_turn",
    "Mixnet.Props.turn_step"
   ],
   "note": "turns are defined by the draws, in Spec/Turns.lean; how often the draws give a turn is C34"
  },
  {
   "property": "C64",
   "status": "proved",
   "theorems": [
    "Mixnet.Props.held_at_most",
    "Mixnet.Props.all_due",
    "Mixnet.Props.held_for",
    "Mixnet.Props.forwarding_delay_capped",
    "Mixnet.Props.delay_sampled"
   ],
   "note": "the hypothesis h10 says that Duration::mul_f64(10.0) of the configured mean is exactly ten times it; the sample of the exponential distribution is an arbitrary function of the seed, only the cap is modelled"
  },
  {
   "property": "C65",
   "status": "proved",
   "theorems": [
    "Mixnet.Props.never_stranded"
   ],
   "note": "Attended (Spec/Waiting.lean) is the usage the documentation of the request manager asks for; that queued packets are sent in turn is C63"
  },
  {
   "property": "C66",
   "status": "proved",
   "theorems": [
    "Mixnet.Props.tries_bounded",
    "Mixnet.Props.destinations_bounded",
    "Mixnet.Props.posts_per_try",
    "Mixnet.Props.destinations_tried",
    "Mixnet.Props.changes_counted"
   ],
   "note": "all but tries_bounded and changes_counted assume that the random message ids are different; the bound counts every change of the session status the manager learned of, though only those that end the session of the request cost a try"
  },
  {
   "property": "C67",
   "status": "proved",
   "theorems": [
    "Mixnet.Props.first_posts_in_order"
   ],
   "note": "the order of a retry after the first post is C43"
  },
  {
   "property": "C68",
   "status": "proved",
   "theorems": [
    "Mixnet.Props.default_sane",
    "Mixnet.Props.default_sendable",
    "Mixnet.Props.request_room",
    "Mixnet.Props.reply_room",
    "Mixnet.Props.surbs_known",
    "Mixnet.Props.default_no_panic",
    "Mixnet.Props.default_posts"
   ],
   "note": "a request of the allowed size may ask for up to 225 SURBs though by default the node remembers only 200"
  },
  {
   "property": "C69",
   "status": "proved",
   "theorems": [
    "Mixnet.Props.forgotten",
    "Mixnet.Props.forgotten_for_good"
   ],
   "note": "SURB keys, incomplete messages and packets to be forwarded do not belong to a session and stay; and Mixnet::new leaves a copy of session_0_kx_secret (for testing only, says its comment) in the configuration, which is kept. That memory is overwritten (zeroize) is not modelled."
  },
  {
   "property": "C70",
   "status": "proved",
   "theorems": [
    "Mixnet.Props.due_leave",
    "Mixnet.Props.leaves_in_time"
   ],
   "note": ""
  },
  {
   "property": "C71",
   "status": "proved",
   "theorems": [
    "Mixnet.Props.settled_for_good",
    "Mixnet.Props.remove_iff",
    "Mixnet.Props.remove_right",
    "Mixnet.Props.late_reply_ignored",
    "Mixnet.Props.reply_settles"
   ],
   "note": ""
  },
  {
   "property": "C72",
   "status": "proved",
   "theorems": [
    "Mixnet.Props.secrets_independent",
    "Mixnet.Props.laws_with_blake"
   ],
   "note": "The hash function itself is a parameter; what is modelled is the size, key, salt, personalisation and message of every call."
  },
  {
   "property": "C73",
   "status": "proved",
   "theorems": [
    "Mixnet.Props.requests_have_cause",
    "Mixnet.Props.replies_have_cause",
    "Mixnet.Props.records_exist",
    "Mixnet.Props.nodes_reachable"
   ],
   "note": "Assumes, as a hypothesis on the history, that no packet sent can be opened with the keys of two machines or sessions (an ideal MAC), and that message ids and SURB ids are not reused."
  },
  {
   "property": "C74",
   "status": "proved",
   "theorems": [
    "Mixnet.Props.delivered_at_most_as_posted"
   ],
   "note": "Same hypotheses as C73, and that no machine goes back to an earlier session."
  },
  {
   "property": "C75",
   "status": "proved",
   "theorems": [
    "Mixnet.Props.replies_within_surbs"
   ],
   "note": "any packets, genuine or forged"
  },
  {
   "property": "C76",
   "status": "proved",
   "theorems": [
    "Mixnet.Props.handled_is_request",
    "Mixnet.Props.reply_is_answer",
    "Mixnet.Props.removed_is_answered"
   ],
   "note": "Hypotheses: message ids drawn are different; SURB ids and SURBs made are different; no packet can be opened by two machines; what a request sends does not depend on the context; programs post only through the managers and give the reply manager only delivered requests and contexts it handed out. Met by a concrete history (Props/SystemWorld.lean)."
  },
  {
   "property": "C77",
   "status": "proved",
   "theorems": [
    "Mixnet.Props.node_goes_on",
    "Mixnet.Props.request_goes_on",
    "Mixnet.Props.reply_goes_on",
    "Mixnet.Props.explained"
   ],
   "note": "Configurations sane; numPostsPerAttempt, numAttemptsPerDestination at least 1; the only panic left is a repeated random SURB id, with its cause."
  },
  {
   "property": "C78",
   "status": "proved",
   "theorems": [
    "Mixnet.Props.one_meaning",
    "Mixnet.Props.handled_twice",
    "Mixnet.Props.handled_by_few"
   ],
   "note": "Hypotheses as for C76."
  },
  {
   "property": "C79",
   "status": "proved",
   "theorems": [
    "Mixnet.Props.reassembled_under_load",
    "Mixnet.Props.not_dropped"
   ],
   "note": "The limit is sharp for the number of messages (example in Props/LoadWorld.lean). Message ids of other traffic are supposed to be different (they are random)."
  },
  {
   "property": "C80",
   "status": "proved",
   "theorems": [
    "Mixnet.Props.few_reported",
    "Mixnet.Props.few_dropped"
   ],
   "note": "Worst case over all inserted tags; the rate of about 1 percent at 7 million packets in a comment of the code is an average for random tags and is not claimed. That tags of fresh packets are uniform is a property of the hash and is not modelled."
  },
  {
   "property": "C81",
   "status": "proved",
   "theorems": [
    "Mixnet.Props.tried_in_turn",
    "Mixnet.Props.bound_tried_in_turn",
    "Mixnet.Props.inserted_tried"
   ],
   "note": "The last condition is needed: a worked case in Props/ProgressWorld.lean shows a bound request overtaken."
  },
  {
   "property": "C82",
   "status": "proved",
   "theorems": [
    "Mixnet.Props.request_answered",
    "Mixnet.Props.answer_settles"
   ],
   "note": "That packets really arrive is an assumption about the network; the theorem says what happens if they do. Message IDs are supposed to be drawn different for answer_settles."
  },
  {
   "property": "C83",
   "status": "proved",
   "theorems": [
    "Mixnet.Props.cover_arrives",
    "Mixnet.Props.cover_like_request"
   ],
   "note": "cover_arrives: every packet popped is either the first of its session's queue, or finds its way (FindsWay, as in C38) to a cover destination or home and does nothing there. cover_like_request couples the two kinds of packets: same state, same random numbers, same route, hop by hop."
  },
  {
   "property": "C84",
   "status": "proved",
   "theorems": [
    "Mixnet.Props.realLaws",
    "Mixnet.Props.public_key_point",
    "Mixnet.Props.shared_secret_point",
    "Mixnet.Props.public_key_honest",
    "Mixnet.Props.honest_mul",
    "Mixnet.Props.honest_ne_zero",
    "Mixnet.Props.honest_injective",
    "Mixnet.Props.diffie_hellman",
    "Mixnet.Props.payload_cipher",
    "Mixnet.Props.payload_cipher_rounds"
   ],
   "note": "CryptoLaws proved for the real primitives (Model/Curve25519, Model/Primitives, Model/RealCrypto): the Montgomery ladder is proved to compute multiples on Mathlib elliptic curve points, 2^255-19 and the group order are proved prime by Pratt certificates. The crates themselves are not in /repo: the algorithms follow their specifications and are checked on known vectors. rand_distr::Exp1 and the queue-delay formula stay parameters."
  },
  {
   "property": "C85",
   "status": "proved",
   "theorems": [
    "Mixnet.Props.hop_reads_action",
    "Mixnet.Props.header_hides",
    "Mixnet.Props.own_keystream_kept",
    "Mixnet.Props.position_hidden",
    "Mixnet.Props.arriving_handed_on",
    "Mixnet.Props.request_handed_on"
   ],
   "note": "information-theoretic form: the keystreams and MACs of the other hops are variables; nothing is said about the public key and the payload of the packet"
  },
  {
   "property": "C86",
   "status": "proved",
   "theorems": [
    "Mixnet.Props.interval_close",
    "Mixnet.Props.estimate_close",
    "Mixnet.Props.f64_close",
    "Mixnet.Props.f64_covers_mean",
    "Mixnet.Props.posted_f64_covers"
   ],
   "note": "f64 arithmetic as exact arithmetic followed by round-to-nearest-even (Model/QueueDelayF64, Model/RealCrypto), sqrt correctly rounded; overflow of f64 and Duration left out"
  },
  {
   "property": "C87",
   "status": "proved",
   "theorems": [
    "Mixnet.Props.delay_close",
    "Mixnet.Props.choice_close",
    "Mixnet.Props.threshold_close"
   ],
   "note": "f64 as exact arithmetic followed by rounding (Model/SendingF64); overflow of f64 and Duration left out"
  },
  {
   "property": "C88",
   "status": "proved",
   "theorems": [
    "Mixnet.Props.estimate_tail",
    "Mixnet.Props.nodes_tail",
    "Mixnet.Props.posted_delay_tail",
    "Mixnet.Props.excess_small"
   ],
   "note": "probabilities over ideal exponential samples and uniform 64-bit draws; the code comment aims at 99.995 per cent, which is not claimed here"
  },
  {
   "property": "C89",
   "status": "proved",
   "theorems": [
    "Mixnet.Props.estimate_bounded",
    "Mixnet.Props.due_soon",
    "Mixnet.Props.default_limit",
    "Mixnet.Props.until_in_use",
    "Mixnet.Props.f64Delays"
   ],
   "note": "for primitives whose delays are f64 numbers (F64Delays; f64Delays shows that the real ones are such); meanForwardingDelay at most 2^49/100 ns, about 1.5 hours, so that one nanosecond covers the rounding"
  },
  {
   "property": "C90",
   "status": "proved",
   "theorems": [
    "Mixnet.Props.authored_to_reserved",
    "Mixnet.Props.authored_to_mixnode",
    "Mixnet.Props.forwarded_to_reserved",
    "Mixnet.Props.route_connections"
   ],
   "note": "at most six hops configured, as always; an example shows why a loop of a mixnode needs two hops"
  },
  {
   "property": "C91",
   "status": "proved",
   "theorems": [
    "Mixnet.Props.request_fits",
    "Mixnet.Props.forward_fits",
    "Mixnet.Props.next_delay_fits",
    "Mixnet.Props.retry_fits",
    "Mixnet.Props.only_loops_overflow"
   ],
   "note": "Checked versions of all time computations (Model/Overflow.lean) agree with the unchecked ones and do not panic."
  },
  {
   "property": "C92",
   "status": "proved",
   "theorems": [
    "Mixnet.Props.altered_peel",
    "Mixnet.Props.altered_handed",
    "Mixnet.Props.altered_forwards",
    "Mixnet.Props.altered_request_dropped",
    "Mixnet.Props.altered_on_the_way",
    "Mixnet.Props.original_request_accepted",
    "Mixnet.Props.altered_reply_dropped",
    "Mixnet.Props.actual_cipher"
   ],
   "note": "The payload cipher with one key is an arbitrary permutation; LIONESS itself is not shown to be like a random one."
  },
  {
   "property": "C93",
   "status": "proved",
   "theorems": [
    "Mixnet.Props.session_stays",
    "Mixnet.Props.session_over",
    "Mixnet.Props.sends_in_window",
    "Mixnet.Props.posts_in_window",
    "Mixnet.Props.other_has_session",
    "Mixnet.Props.other_in_session"
   ],
   "note": "Two arbitrary reachable nodes; stages are four times the session index plus the phase."
  },
  {
   "property": "C94",
   "status": "proved",
   "theorems": [
    "Mixnet.Props.forged_dropped",
    "Mixnet.Props.all_forged_dropped",
    "Mixnet.Props.altered_header_dropped",
    "Mixnet.Props.altered_mac_dropped",
    "Mixnet.Props.seen_unaffected",
    "Mixnet.Props.actual_mac"
   ],
   "note": "The MAC function is an arbitrary function with the values seen; keyed BLAKE2b itself is not shown to be like a random one."
  },
  {
   "property": "C95",
   "status": "proved",
   "theorems": [
    "Mixnet.Props.relay_share",
    "Mixnet.Props.relay_same",
    "Mixnet.Props.relay_unlinkable",
    "Mixnet.Props.forwards_handsOn",
    "Mixnet.Props.actual_relay"
   ],
   "note": "The keystream and the permutation are arbitrary; ChaCha20 and LIONESS themselves are not shown to be like random ones, and the blinded public key is left out."
  },
  {
   "property": "C96",
   "status": "proved",
   "theorems": [
    "Mixnet.Props.memory_limited",
    "Mixnet.Props.tables_limited",
    "Mixnet.Props.packet_size",
    "Mixnet.Props.sent_size"
   ],
   "note": "byte strings of variable size are counted; fixed-size data (replay filters, keys, flags) and allocator overhead are not"
  },
  {
   "property": "C97",
   "status": "proved",
   "theorems": [
    "Mixnet.Props.reply_in_time",
    "Mixnet.Props.held_within"
   ],
   "note": "All relays use the mean forwarding delay of the requester; f64 addition and multiplication are assumed correctly rounded (structure F64Delays, satisfied by the example), num_hops is at most 6 and 100 times the mean forwarding delay is at most 2^49 ns. The waits in the queues are hypotheses: C88 bounds them in probability."
  },
  {
   "property": "C98",
   "status": "proved",
   "theorems": [
    "Mixnet.Props.answered_before_retry"
   ],
   "note": "under the assumptions of C97; that pop_next_retry is not called before the time next_retry_deadline returns is a hypothesis on the program (Spec.Punctual)"
  },
  {
   "property": "C99",
   "status": "proved",
   "theorems": [
    "Mixnet.Props.waits_until_due",
    "Mixnet.Props.waiting_not_posted"
   ],
   "note": "message ids drawn are assumed different, for the claim about posts"
  },
  {
   "property": "C100",
   "status": "proved",
   "theorems": [
    "Mixnet.Props.leaves_the_manager"
   ],
   "note": "Hypotheses as for C89 (F64Delays, Sane, mean forwarding delay at most about 1.5 hours); that there is room for the posts of the request is a hypothesis on each state (NotQueued), C65 and C81 are about the waiting for room; that what left was removed or handled is C40."
  },
  {
   "property": "C101",
   "status": "proved",
   "theorems": [
    "Mixnet.Props.relay_mixes",
    "Mixnet.Props.cases_exclusive",
    "Mixnet.Props.next_is_uniform"
   ],
   "note": "That the samples are independent and exponential is a hypothesis (RandomSamples, ManySamples), as the generator seeded with the delay seed is not random; the probabilities are over the samples, the histories are quantified for each outcome."
  },
  {
   "property": "C102",
   "status": "proved",
   "theorems": [
    "Mixnet.Props.holding_time",
    "Mixnet.Props.waiting_time"
   ],
   "note": "That the samples are exponential is a hypothesis (OneSample). The wait is that of the model with exact numbers; C87 bounds the difference to f64."
  }
 ]
}