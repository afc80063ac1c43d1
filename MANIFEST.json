{
 "claims": [
  {
   "property": "C01",
   "status": "proved",
   "theorems": [
    "PSync.c01_net_effect",
    "PSync.c01_total",
    "PSync.c01_insert_erase"
   ],
   "note": "All capacities, keys and histories; histories under 2^31 calls always stay in int32 range."
  },
  {
   "property": "C02",
   "status": "proved",
   "theorems": [
    "PSync.c02_round_trip",
    "PSync.c02_accepts",
    "PSync.c02_faithful"
   ],
   "note": "Compression is any lossless codec; acceptance is characterised exactly."
  },
  {
   "property": "C03",
   "status": "partial",
   "theorems": [
    "PSync.c03_diff_exact_partial",
    "PSync.c03_false"
   ],
   "note": "False as stated: c03_false exhibits two sets whose difference decodes to a key neither holds. Partial: exact when the 32-bit checksum does not collide on the differing keys."
  },
  {
   "property": "C04",
   "status": "proved",
   "theorems": [
    "PSync.c04_single_key"
   ],
   "note": "No bound on the number of shared keys."
  },
  {
   "property": "C05",
   "status": "proved",
   "theorems": [
    "PSync.c05_decodes_iff",
    "PSync.c05_total",
    "PSync.c05_two_keys"
   ],
   "note": "Iff with stopping sets, for sets without checksum collision (unconditional for up to two differing keys)."
  },
  {
   "property": "C06",
   "status": "proved",
   "theorems": [
    "PSync.c06_antisymmetric"
   ],
   "note": "Arbitrary cell contents; both differences must be defined (no int32 overflow)."
  },
  {
   "property": "C07",
   "status": "partial",
   "theorems": [
    "PSync.c07_terminates_partial",
    "PSync.c07_false"
   ],
   "note": "False: for every own set and capacity >= 3 there is a received component on which the peeling loop never ends. Partial: honest IBFs without checksum collision."
  },
  {
   "property": "C08",
   "status": "partial",
   "theorems": [
    "PSync.c08_no_overflow_partial",
    "PSync.c08_false",
    "PSync.c08_overflow",
    "PSync.c08_any_partial"
   ],
   "note": "False: a received count of -2^31 overflows. Partial: honest IBFs. For tables of any content: counts that differ by 2^31 or more always overflow (c08_overflow), and nothing overflows in the first n passes if they differ by less than 2^31 - n * cells (c08_any_partial)."
  },
  {
   "property": "C09",
   "status": "proved",
   "theorems": [
    "PSync.c09_empty_iff_equal",
    "PSync.c09_equal_decodes"
   ],
   "note": "Arbitrary cell contents."
  },
  {
   "property": "C10",
   "status": "proved",
   "theorems": [
    "PSync.c10_murmur_injective",
    "PSync.c10_check_identifies",
    "PSync.c10_name_hash"
   ],
   "note": "Bit-exact MurmurHash3."
  },
  {
   "property": "C11",
   "status": "proved",
   "theorems": [
    "PSync.c11_round_trip"
   ],
   "note": "All interleavings of addContent and wireEncode, from a new or a received State."
  },
  {
   "property": "C12",
   "status": "proved",
   "theorems": [
    "PSync.c12_decode_exact",
    "PSync.c12_unambiguous"
   ],
   "note": "Exact characterisation by an independent TLV grammar."
  },
  {
   "property": "C13",
   "status": "proved",
   "theorems": [
    "PSync.c13_read_back",
    "PSync.c13_injective",
    "PSync.c13_injective_wire"
   ],
   "note": "All uint64."
  },
  {
   "property": "C14",
   "status": "proved",
   "theorems": [
    "PSync.c14_no_false_negative",
    "PSync.c14_contains_iff"
   ],
   "note": "Includes the exact membership condition."
  },
  {
   "property": "C15",
   "status": "proved",
   "theorems": [
    "PSync.c15_set_only",
    "PSync.c15_clear"
   ],
   "note": ""
  },
  {
   "property": "C16",
   "status": "proved",
   "theorems": [
    "PSync.c16_round_trip",
    "PSync.c16_rejects"
   ],
   "note": "Floating point is an oracle; the same-parameters condition is a hypothesis."
  },
  {
   "property": "C17",
   "status": "partial",
   "theorems": [
    "PSync.c17_safe_partial",
    "PSync.c17_exact",
    "PSync.c17_false",
    "PSync.c17_false_cast",
    "PSync.c17_false_zero",
    "PSync.c17_false_large",
    "PSync.ieee_at_one",
    "PSync.ieee_at_zero"
   ],
   "note": "False: probability 1.000 or more with an empty table reads out of bounds or converts infinity; probability 0 converts -inf to unsigned (in IEEE arithmetic, for every count). Partial: computed size between 1 and 2^32-8 bits. c17_exact states exactly when it happens."
  },
  {
   "property": "C18",
   "status": "proved",
   "theorems": [
    "PSync.c18_full_monotone",
    "PSync.c18_partial_monotone"
   ],
   "note": "From any state, any events, both producers."
  },
  {
   "property": "C19",
   "status": "proved",
   "theorems": [
    "PSync.c19_full_publish",
    "PSync.c19_partial_publish",
    "PSync.c19_total"
   ],
   "note": "Both producers, all reachable states; old+1 saturates at the largest uint64 (publication of a wrapped number is ignored by updateSeqNo)."
  },
  {
   "property": "C20",
   "status": "proved",
   "theorems": [
    "PSync.c20_add",
    "PSync.c20_remove",
    "PSync.c20_calls"
   ],
   "note": "Both producers."
  },
  {
   "property": "C21",
   "status": "partial",
   "theorems": [
    "PSync.c21_ibf_exact_partial",
    "PSync.c21_false"
   ],
   "note": "False: c21_false publishes two names with equal 32-bit hash and ends with a stale key in the IBF. Partial: exact when publications current at the same time never collide."
  },
  {
   "property": "C22",
   "status": "partial",
   "theorems": [
    "PSync.c22_same_ibf_partial",
    "PSync.c22_false"
   ],
   "note": "False with a hash collision in the history (c22_false). Partial: collision-free histories of either producer kind."
  },
  {
   "property": "C23",
   "status": "proved",
   "theorems": [
    "PSync.c23_cumulative_count",
    "PSync.c23_current",
    "PSync.c23_ibf_partial"
   ],
   "note": "Every Interest in the log of a reachable node. c23_ibf_partial (additional): without collisions the IBF is that of the same moment."
  },
  {
   "property": "C53",
   "status": "proved",
   "theorems": [
    "PSync.c53_segmentation",
    "PSync.c53_count"
   ],
   "note": "All buffers."
  },
  {
   "property": "C54",
   "status": "proved",
   "theorems": [
    "PSync.c54_requested_segment",
    "PSync.c54_total"
   ],
   "note": ""
  },
  {
   "property": "C55",
   "status": "proved",
   "theorems": [
    "PSync.c55_store_sound",
    "PSync.c55_keeps_recent",
    "PSync.c55_expiry"
   ],
   "note": "All histories of publish, expiry and lookup."
  },
  {
   "property": "C24",
   "status": "partial",
   "theorems": [
    "PSync.c24_false",
    "PSync.c24_reply_current_partial",
    "PSync.c24_history_partial"
   ],
   "note": "False as stated: a reply served from the segment store within its freshness period can name an older publication (c24_false). Proved: every freshly generated reply names only current publications, for any Interest; every Data ever sent names only numbers that had been reached."
  },
  {
   "property": "C25",
   "status": "partial",
   "theorems": [
    "PSync.c25_false",
    "PSync.c25_reply_complete_partial"
   ],
   "note": "False as stated for stored replies (c25_false). Proved for generated replies without hash or checksum collision, decodable or not; no reply to a decodable Interest means nothing was missing."
  },
  {
   "property": "C26",
   "status": "proved",
   "theorems": [
    "PSync.c26_merge_max"
   ],
   "note": "All states, all contents, repeated prefixes, calls from inside the callback."
  },
  {
   "property": "C28",
   "status": "partial",
   "theorems": [
    "PSync.c28_same_numbers",
    "PSync.c28_same_ibf_partial",
    "PSync.c28_false"
   ],
   "note": "The prefix->seq map part is proved without restriction. Equality of the IBFs is false with a 32-bit hash collision (c28_false) and proved without."
  },
  {
   "property": "C27",
   "status": "proved",
   "theorems": [
    "PSync.c27_ranges_tile",
    "PSync.c27_remote_prefix",
    "PSync.c27_exactly_once"
   ],
   "note": "All runs. Quirk covered by the statement: an unknown prefix announced with number 0 is reported as the empty range [1,0]."
  },
  {
   "property": "C29",
   "status": "partial",
   "theorems": [
    "PSync.c29_answers_all_partial",
    "PSync.c29_false",
    "PSync.c29_exact"
   ],
   "note": "False as stated: a crafted Interest whose name ends in a segment component is dropped without Data (c29_false). Proved for all other parked names, any number of them. c29_exact states for all names which packet each parked Interest gets."
  },
  {
   "property": "C30",
   "status": "partial",
   "theorems": [
    "PSync.c30_expires_partial",
    "PSync.c30_renewed",
    "PSync.c30_only_alive_answered",
    "PSync.c30_false"
   ],
   "note": "False as stated: an Interest that waited for news is parked with the default lifetime of 4 s instead of its own (c30_false). Partial: received within its lifetime, or retried at most 4 s ago. Renewal and the absence of late answers are proved. Timers may be late by up to cfg.lag, any number; time bounds include it."
  },
  {
   "property": "C31",
   "status": "proved",
   "theorems": [
    "PSync.c31_bounded",
    "PSync.c31_at_most_twice"
   ],
   "note": "All runs. Ahead means: no packet for the Interest in memory, not parked, and the difference shows only data we miss (or does not decode and the Interest reports more publications)."
  },
  {
   "property": "C32",
   "status": "proved",
   "theorems": [
    "PSync.c32_scheduled",
    "PSync.c32_transmits"
   ],
   "note": "For every reachable state of a well-formed configuration; the due timer sends the current Interest and cannot fail. Timers may be late by up to cfg.lag, any number; time bounds include it."
  },
  {
   "property": "C38",
   "status": "partial",
   "theorems": [
    "PSync.c38_attempt_partial",
    "PSync.c38_after_reply",
    "PSync.c38_false",
    "PSync.c38_event",
    "PSync.c38_exact"
   ],
   "note": "False as stated: an attempt within 100 ms of the same Interest cancels the outstanding one and sends none (witness). Proved for all other attempts. c38_exact states exactly when an Interest is left outstanding and what happens otherwise."
  },
  {
   "property": "C33",
   "status": "proved",
   "theorems": [
    "PSync.c33_no_deadlock"
   ],
   "note": "All pairs of reachable states without removals; both differences must be defined (terminating, no int32 overflow)."
  },
  {
   "property": "C34",
   "status": "partial",
   "theorems": [
    "PSync.c34_partial_producer",
    "PSync.c34_full_partial",
    "PSync.c34_full_exact",
    "PSync.c34_false"
   ],
   "note": "False for full sync: a last name component of 3 bytes makes toNumber throw out of the handler (c34_false). Proved for partial sync (sync and hello, every Interest) and for full sync when the component read as a number has 1, 2, 4 or 8 bytes; c34_full_exact states exactly which Interests raise the exception."
  },
  {
   "property": "C36",
   "status": "partial",
   "theorems": [
    "PSync.c36_nack_matches_partial",
    "PSync.c36_full_never",
    "PSync.c36_false"
   ],
   "note": "False for full sync: a nack never satisfies the Interest (c36_full_never), witness c36_false. Proved for partial sync with the Interest form of the consumer."
  },
  {
   "property": "C37",
   "status": "partial",
   "theorems": [
    "PSync.c37_full_partial",
    "PSync.c39_publish_current",
    "PSync.c37_false",
    "PSync.c37_exact"
   ],
   "note": "False: publishName with a number not above the current one changes nothing but announces it to parked Interests (c37_false). Proved for publications that raise the number, and for partial sync (always the current number). c37_exact states exactly what is announced and when it is stale."
  },
  {
   "property": "C39",
   "status": "partial",
   "theorems": [
    "PSync.c39_reply_sound_partial",
    "PSync.c39_publish_current",
    "PSync.c39_history",
    "PSync.c39_false"
   ],
   "note": "False for replies taken from the segment store (witness c39_false). Proved for all other answers to Interests and for all answers made by publishName."
  },
  {
   "property": "C40",
   "status": "proved",
   "theorems": [
    "PSync.c40_reply_complete"
   ],
   "note": "The reply consists of exactly the missing subscribed publications, for Interests carrying the IBF of any reachable state without hash collisions."
  },
  {
   "property": "C41",
   "status": "proved",
   "theorems": [
    "PSync.c41_nack_condition"
   ],
   "note": "All states and all well-formed Interests."
  },
  {
   "property": "C42",
   "status": "proved",
   "theorems": [
    "PSync.c42_publish_serves",
    "PSync.c39_publish_current"
   ],
   "note": "Served treats any number of parked Interests one by one."
  },
  {
   "property": "C43",
   "status": "partial",
   "theorems": [
    "PSync.c43_expires_partial",
    "PSync.c43_false"
   ],
   "note": "False for Interests with version and segment number: their entry never expires (witness c43_false). Proved for names that were only received in the plain form. Timers may be late by up to cfg.lag, any number; time bounds include it."
  },
  {
   "property": "C44",
   "status": "proved",
   "theorems": [
    "PSync.c44_hello_reply",
    "PSync.c44_other_ignored"
   ],
   "note": "All states and hello Interests."
  },
  {
   "property": "C46",
   "status": "proved",
   "theorems": [
    "PSync.c46_ranges",
    "PSync.c46_ranges_new",
    "PSync.c46_sync_merge",
    "PSync.c46_hello_merge"
   ],
   "note": "Ranges notified tile; numbers never decrease and follow the largest announcement, in any reachable execution."
  },
  {
   "property": "C47",
   "status": "partial",
   "theorems": [
    "PSync.c47_add_partial",
    "PSync.c47_remove",
    "PSync.c47_reflects",
    "PSync.c47_false"
   ],
   "note": "The claim is false: a late sync Data after removeSubscription leaves a number behind and the next addSubscription is refused (c47_false). Proved: addSubscription exactly when no number is recorded, removeSubscription exactly, isSubscribed reflects the calls."
  },
  {
   "property": "C48",
   "status": "partial",
   "theorems": [
    "PSync.c48_origin_partial",
    "PSync.c48_false",
    "PSync.c48_false_hello"
   ],
   "note": "The claim is false: prefixes can be reported after unsubscribing. Proved: what sync Data causes to be reported is announced in that Data with a larger number, and hello Data only reports subscribed prefixes."
  },
  {
   "property": "C49",
   "status": "proved",
   "theorems": [
    "PSync.c49_filter",
    "PSync.c49_filter_current"
   ],
   "note": "Every Interest is the hello Interest or carries the filter of the subscriptions at the moment of sending."
  },
  {
   "property": "C50",
   "status": "partial",
   "theorems": [
    "PSync.c50_stop",
    "PSync.c50_stop_in_hello",
    "PSync.c50_false"
   ],
   "note": "stop() from the event loop or last in the hello callback silences the consumer for good; false for stop() in the update callback of a sync reply."
  },
  {
   "property": "C51",
   "status": "partial",
   "theorems": [
    "PSync.c51_nack",
    "PSync.c51_later_partial",
    "PSync.c51_completed",
    "PSync.c51_false"
   ],
   "note": "One hello Interest per nack and nothing else changes; later Data with a FinalBlockId is never misread, nor any later Data once the fetch of the nack has completed; false for Data without FinalBlockId after an incomplete nack."
  },
  {
   "property": "C52",
   "status": "partial",
   "theorems": [
    "PSync.c52_format_partial",
    "PSync.c52_exact",
    "PSync.c52_unserved",
    "PSync.c52_ibf_hello",
    "PSync.c52_ibf_sync",
    "PSync.c52_false",
    "PSync.c87_interest"
   ],
   "note": "Holds for probabilities that survive the transmission in thousandths (C87: all literals of whole thousandths); false otherwise (witness 0.0019). For every probability: the producer can read the Interest exactly if the filter it computes has as many bytes as the consumer's; if not, it never answers or keeps any sync Interest of this consumer."
  },
  {
   "property": "C35",
   "status": "partial",
   "theorems": [
    "PSync.c35_hello_exact",
    "PSync.c35_sync_exact",
    "PSync.c35_honest_proper",
    "PSync.c35_full_partial",
    "PSync.c35_full_total",
    "PSync.c35_full_exact",
    "PSync.c35_witnesses",
    "PSync.c35_false"
   ],
   "note": "The claim is false (witnesses for both receivers). Proved: exactly which contents a consumer survives, exactly which contents a full producer survives for whose answer nobody waits, that producers only send such contents, and that a full producer raises no exception on contents whose names end in numbers."
  },
  {
   "property": "C56",
   "status": "partial",
   "theorems": [
    "PSync.c56_no_invention_partial",
    "PSync.c56_publisher",
    "PSync.c56_false"
   ],
   "note": "False as stated: c56_false gives a run in which two nodes answer one Interest in the same millisecond with two-segment replies and the receiver assembles a sequence number nobody published. Proved for every group size and schedule in which no two replies carry the same version. c56_publisher ties published to calls of publishName."
  },
  {
   "property": "C57",
   "status": "partial",
   "theorems": [
    "PSync.c57_converge_partial",
    "PSync.c57_sample",
    "PSync.c57_false"
   ],
   "note": "False as stated: c57_false is an exchange answered from the segment store with an outdated reply. Proved for every group size and every order of exchanges that are answered freshly, without removals, hash collisions or equal versions."
  },
  {
   "property": "C45",
   "status": "partial",
   "theorems": [
    "PSync.c45_up_to_date_partial",
    "PSync.c45_up_to_date_many_partial",
    "PSync.c45_false",
    "PSync.c45_false_stale"
   ],
   "note": "False as stated: a subscription added while a sync Interest is pending, or added with a number below the one in the hello reply, is never brought up to date (c45_false, c45_false_stale). Proved for applications that add subscriptions while no sync Interest is pending and with current numbers, for all runs with loss, delay, duplication, reordering and caching, without hash collisions among published names."
  },
  {
   "property": "C58",
   "status": "partial",
   "theorems": [
    "PSync.c58_partial_producer",
    "PSync.c58_full_partial",
    "PSync.c58_false"
   ],
   "note": "Proved for PartialProducer; for FullProducer it is false (c58_false: Data with news arrives while an Interest is parked, onSyncData does not satisfy it), and true as long as the IBF changes only by own publications (c58_full_partial)"
  },
  {
   "property": "C59",
   "status": "proved",
   "theorems": [
    "PSync.c59_never_silent",
    "PSync.c59_timer_sends",
    "PSync.c59_needs_callback"
   ],
   "note": "All runs whose sync fetches complete only after a packet with FinalBlockId (ndn-cxx SegmentFetcher). c59_needs_callback: the condition on the hello callback cannot be dropped."
  },
  {
   "property": "C60",
   "status": "proved",
   "theorems": [
    "PSync.c60_never_fails"
   ],
   "note": "Hypotheses: same parameters, lossless codecs, distinct reply versions, replies and names that fit in packets, no hash or checksum collision among the published names (numbers in P). Strangers' packets can make a node fail: C34, C35."
  },
  {
   "property": "C61",
   "status": "proved",
   "theorems": [
    "PSync.c61_never_fails",
    "PSync.c61_needs_hello"
   ],
   "note": "Hypotheses: matching parameters, lossless IBF codec, replies and names that fit in packets, distinct versions of different replies, no hash or checksum collision among the published names (numbers in K), fuel of the peeling loop above the number of differences. Crafted packets can make both sides fail: C34, C35, C36, C43."
  },
  {
   "property": "C62",
   "status": "partial",
   "theorems": [
    "PSync.c62_subscribes_partial",
    "PSync.c62_every_hello_partial",
    "PSync.c62_only_hello",
    "PSync.c62_at_most",
    "PSync.c62_false",
    "PSync.c62_out_of_bounds"
   ],
   "note": "false as stated: a second hello reply (after a nack) adds further subscriptions, and a hello with fewer prefixes than asked for is an out-of-bounds read; proved for the first hello reply of any run; for later ones exactly what they add, and the resulting bound"
  },
  {
   "property": "C63",
   "status": "proved",
   "theorems": [
    "PSync.c63_prints_consecutive"
   ],
   "note": "all histories of the example consumer"
  },
  {
   "property": "C64",
   "status": "partial",
   "theorems": [
    "PSync.c64_consumer_partial",
    "PSync.c64_full_partial",
    "PSync.c64_consumer_hangs",
    "PSync.c64_full_hangs",
    "PSync.c64_false"
   ],
   "note": "false as stated: the loop never ends for a range up to 2^64-1; proved for all other ranges"
  },
  {
   "property": "C65",
   "status": "partial",
   "theorems": [
    "PSync.c65_part_partial",
    "PSync.c65_full_partial",
    "PSync.c65_part_value",
    "PSync.c65_full_value",
    "PSync.c65_zero",
    "PSync.c65_full_false"
   ],
   "note": "false as stated for the limit 0 (one publication) and, in full sync, for a node whose old numbers the group remembers; proved for partial sync with a limit of at least 1; for full sync the bounds on number and order of publications (and the full claim inside a group whose streams are its own: C80, c80_own)"
  },
  {
   "property": "C66",
   "status": "partial",
   "theorems": [
    "PSync.c66_rounds_partial",
    "PSync.c66_false",
    "PSync.c66_sample"
   ],
   "note": "False if a reply that was already stored when a round began is used again (c66_false); proved for rounds at whose start the asked node stores no reply to the Interest, without removals, collisions and equal versions."
  },
  {
   "property": "C67",
   "status": "proved",
   "theorems": [
    "PSync.c67_wait_out"
   ],
   "note": "Timers may be late by up to cfg.lag, any number; time bounds include it."
  },
  {
   "property": "C68",
   "status": "partial",
   "theorems": [
    "PSync.c68_timed_partial",
    "PSync.c68_sample",
    "PSync.c68_false"
   ],
   "note": "False if nodes use different values of syncReplyFreshness (c68_false); proved for equal values, without publications of number 0, removals, collisions and equal versions. Timers may be late: 2*(clock difference) + lag < 90 ms."
  },
  {
   "property": "C69",
   "status": "proved",
   "theorems": [
    "PSync.c69_retry",
    "PSync.c69_renew",
    "PSync.c69_pace"
   ],
   "note": "Timers may be late by up to cfg.lag, any number; time bounds include it."
  },
  {
   "property": "C70",
   "status": "proved",
   "theorems": [
    "PSync.c70_spacing"
   ],
   "note": ""
  },
  {
   "property": "C71",
   "status": "proved",
   "theorems": [
    "PSync.c71_waiting",
    "PSync.c71_asking",
    "PSync.c71_reply",
    "PSync.c71_hello"
   ],
   "note": "waiting consumer is up to date; a late one is answered at once unless from the store; processed replies bring the state named in the packet"
  },
  {
   "property": "C72",
   "status": "partial",
   "theorems": [
    "PSync.c72_false",
    "PSync.c72_full_partial",
    "PSync.c72_partial_producer"
   ],
   "note": "False for full sync: a parked Interest with the name of the node's own outstanding one is dropped when a reply to the latter arrives.  Proved without that case, for min(lifetime, 4000 ms) (a retry parks for 4000 ms) and names not ending in a segment number.  Partial sync: proved for names not ending in a segment number."
  },
  {
   "property": "C73",
   "status": "proved",
   "theorems": [
    "PSync.c73_retried",
    "PSync.c73_ahead",
    "PSync.c73_never_forever"
   ],
   "note": "assumes jitter within its bounds (WF). Timers may be late by up to cfg.lag, any number; time bounds include it."
  },
  {
   "property": "C74",
   "status": "proved",
   "theorems": [
    "PSync.c74_full",
    "PSync.c74_full_empties",
    "PSync.c74_partial_producer",
    "PSync.c74_partial_producer_empties"
   ],
   "note": "the version of a reply is arbitrary; names of replies made by publications are bounded by the number at that moment. Timers may be late by up to cfg.lag, any number; time bounds include it."
  },
  {
   "property": "C75",
   "status": "proved",
   "theorems": [
    "PSync.c75_offered",
    "PSync.c75_notified",
    "PSync.c75_known",
    "PSync.c75_not_ahead"
   ],
   "note": "all applications; as in C45 without hash collisions among published names, with matching parameters, and packets not forged"
  },
  {
   "property": "C76",
   "status": "proved",
   "theorems": [
    "PSync.c76_prints_all",
    "PSync.c76_prints_at_least",
    "PSync.c76_up_to_date",
    "PSync.c76_published"
   ],
   "note": "as C75; an application nack completes its fetch in the event handler that receives it (NackAtOnce), as SegmentFetcher does for one-packet Data"
  },
  {
   "property": "C77",
   "status": "proved",
   "theorems": [
    "PSync.c77_arrival"
   ],
   "note": ""
  },
  {
   "property": "C78",
   "status": "proved",
   "theorems": [
    "PSync.c78_arrival",
    "PSync.c78_honest"
   ],
   "note": ""
  },
  {
   "property": "C79",
   "status": "proved",
   "theorems": [
    "PSync.c79_full",
    "PSync.c79_partial_sync"
   ],
   "note": "also that the stored segments are found under their own names"
  },
  {
   "property": "C80",
   "status": "proved",
   "theorems": [
    "PSync.c80_foreign",
    "PSync.c80_own",
    "PSync.c80_others",
    "PSync.c80_nothing_else",
    "PSync.c80_everything"
   ],
   "note": "the non-vacuity witness c80_sample meets the hypotheses of all of them"
  },
  {
   "property": "C81",
   "status": "proved",
   "theorems": [
    "PSync.c81_time",
    "PSync.c81_rounds"
   ],
   "note": "in rounds: c81_rounds; hypotheses as in the quantifier; sample run c81_sample"
  },
  {
   "property": "C82",
   "status": "proved",
   "theorems": [
    "PSync.c82_pace"
   ],
   "note": "Model: Spec.CRun is a run of the consumer with arbitrary events, in which a sync fetch completes only after a packet with FinalBlockId; FetchesEnd is the promise of the SegmentFetcher. c82_sample: hello, sync, nack, failed hellos and a failed sync, with silences below the bound."
  },
  {
   "property": "C83",
   "status": "proved",
   "theorems": [
    "PSync.c83_time",
    "PSync.c83_told"
   ],
   "note": "Model: Spec.PSRun (as C45, C71), with the clocks of both sides; PSPrompt is the promise of the network from a moment on. c83_sample: a reply is lost, the retry is answered from the segment store, and the run goes on beyond the bound."
  },
  {
   "property": "C84",
   "status": "proved",
   "theorems": [
    "PSync.c84_published",
    "PSync.c84_time",
    "PSync.c84_sample"
   ],
   "note": "Timers may be late by the lag of the model; the promise about the network is Spec/Fair.lean, Prompt (of the producers inside the programs)."
  },
  {
   "property": "C85",
   "status": "proved",
   "theorems": [
    "PSync.c85_prints",
    "PSync.c85_programs"
   ],
   "note": "Stated for runs of both programs (Spec/ExampleRun.lean, Spec/ExampleDuo.lean). NackAtOnce as in C76; timing assumptions as in C83 (PSPrompt, FetchesEnd)."
  },
  {
   "property": "C86",
   "status": "partial",
   "theorems": [
    "PSync.c86_full",
    "PSync.c86_full_superseded",
    "PSync.c86_consumer_superseded",
    "PSync.c86_consumer_exact",
    "PSync.c86_stopped_partial",
    "PSync.c86_producer_exact",
    "PSync.c86_false_consumer",
    "PSync.c86_false_producer",
    "PSync.c86_false"
   ],
   "note": "Proved for FullProducer. False for Consumer (no destructor: a fetch that runs calls back; exactly when one is outstanding; safe after stop()) and for PartialProducer (the handles of its Interest filters are dropped)."
  },
  {
   "property": "C87",
   "status": "proved",
   "theorems": [
    "PSync.c87_literal",
    "PSync.c87_unique",
    "PSync.c87_interest",
    "PSync.c87_range"
   ],
   "note": "IEEE 754 arithmetic modelled on bit patterns."
  },
  {
   "property": "C88",
   "status": "partial",
   "theorems": [
    "PSync.c88_false",
    "PSync.c88_false_probability",
    "PSync.c88_false_overflow",
    "PSync.c88_false_endless",
    "PSync.c88_producer_exact",
    "PSync.c88_full_exact",
    "PSync.c88_producer_partial",
    "PSync.c88_full_partial"
   ],
   "note": "False as stated; the exact conditions under which the handler of an Interest fails are proved for every state. Missing: arbitrary IBFs and filter parameters, for which the claim is false (C08, C17)."
  },
  {
   "property": "C89",
   "status": "partial",
   "theorems": [
    "PSync.c89_false",
    "PSync.c89_partial_producer",
    "PSync.c89_each",
    "PSync.c89_full_partial",
    "PSync.c89_distinct_partial"
   ],
   "note": "False as stated: a FullProducer answers the retries of a waiting Interest from memory although the same Interest was parked and answered meanwhile (c89_false). True for PartialProducer; true for FullProducer as long as no Interest is in both lists, in particular if no name is received twice."
  },
  {
   "property": "C90",
   "status": "partial",
   "theorems": [
    "PSync.c90_full",
    "PSync.c90_full_interest",
    "PSync.c90_producer_partial",
    "PSync.c90_oversized",
    "PSync.c90_false"
   ],
   "note": "False as stated: c90_false is a PartialProducer within the stated options that answers a sync Interest of 4194 bytes with a Data of 8828 bytes, because the Data repeats the name of the Interest, appends another IBF and may carry 4400 bytes of content. Proved: it holds for the FullProducer in every run (c90_full; its Interests have a size given by the options, c90_full_interest), and for the PartialProducer if the received sync Interest names, the IBF and the signature together have at most 4337 bytes (c90_producer_partial). c90_oversized is the lower bound on the size of every fresh answer."
  },
  {
   "property": "C91",
   "status": "proved",
   "theorems": [
    "PSync.c91_mixed",
    "PSync.c91_good",
    "PSync.c91_model"
   ],
   "note": "For every number of hash functions and every sequence of random numbers: whenever the loop ends, the salts are as many as asked for, pairwise different and not zero (c91_good); c91_mixed states the mixing exactly; c91_model links the loop to the salts used in the model of the filter, which are the same for equal numbers of hash functions. That the random loop ends is not claimed (rand() is outside the code)."
  },
  {
   "property": "C92",
   "status": "proved",
   "theorems": [
    "PSync.c92_reasons",
    "PSync.c92_exact",
    "PSync.c92_kinds"
   ],
   "note": "For every run. The reasons are counted per event from the state before it; events of fetches that were stopped or replaced are no reasons. See C51 for the nack with several segments, C59 and C82 for the other direction over time."
  },
  {
   "property": "C93",
   "status": "proved",
   "theorems": [
    "PSync.c93_timer",
    "PSync.c93_news",
    "PSync.c93_listed"
   ],
   "note": "All reachable states. An Interest whose last component is marked as a segment number is only covered up to the answer from the store."
  },
  {
   "property": "C94",
   "status": "partial",
   "theorems": [
    "PSync.c94_dispatch",
    "PSync.c94_default",
    "PSync.c94_wf",
    "PSync.c94_construct_partial",
    "PSync.c94_content",
    "PSync.c94_part",
    "PSync.c94_default_partial",
    "PSync.c94_false",
    "PSync.c94_default_false"
   ],
   "note": "False as stated: c94_false is a FullProducer whose scheme for the content is missing and that is constructed all the same, c94_default_false two nodes with default options, built with and without zlib, that do not understand each other. Proved: the dispatch for all builds, schemes and buffers (c94_dispatch); a FullProducer is refused exactly if the scheme for the IBF is missing (c94_construct_partial); if that for the content is missing it never sends anything but Interests and nacks and never reports anything (c94_content); a PartialProducer without its scheme never sends anything and throws on every hello (c94_part); nodes built with the same zlib, or both without, understand each other's Interests (c94_default_partial). That Boost's algorithms are lossless is assumed."
  },
  {
   "property": "C95",
   "status": "partial",
   "theorems": [
    "PSync.c95_full_partial",
    "PSync.c95_part_partial",
    "PSync.c95_zero_full",
    "PSync.c95_zero_part",
    "PSync.c95_old_full_partial",
    "PSync.c95_old_part_partial",
    "PSync.c95_old_publish",
    "PSync.c95_default",
    "PSync.c95_false",
    "PSync.c95_old_false"
   ],
   "note": "False as stated: with ibfCount = 0 a producer is constructed and divides by zero with the first publication (c95_false, c95_zero_full, c95_zero_part); the deprecated constructors cut a count given as size_t to 32 bits (c95_old_false, c95_old_publish). Proved: with ibfCount > 0 the first publication works, and with a count below 2^32 the deprecated constructors do what they should."
  },
  {
   "property": "C96",
   "status": "partial",
   "theorems": [
    "PSync.c96_false",
    "PSync.c96_false_interest",
    "PSync.c96_rejects",
    "PSync.c96_served_partial"
   ],
   "note": "False as stated: a consumer with a probability below 0.001 sends the number 0, and every producer that receives one of its sync Interests has undefined behaviour. Partial: probabilities that are literals k/1000."
  },
  {
   "property": "C97",
   "status": "partial",
   "theorems": [
    "PSync.c97_false",
    "PSync.c97_exact",
    "PSync.c97_old",
    "PSync.c97_false_tiny",
    "PSync.c97_false_large",
    "PSync.c97_false_nan",
    "PSync.c97_false_coarse",
    "PSync.c97_accurate_partial",
    "PSync.c97_range_partial",
    "PSync.c97_default",
    "PSync.c97_false_many",
    "PSync.c97_false_single"
   ],
   "note": "False as stated: with a tiny probability or very many subscriptions the constructor converts a number that does not fit, with a coarse one the table has no bytes. Partial: exactly when a consumer works, in terms of the computed sizes for every math library, and of real numbers for an accurate one."
  },
  {
   "property": "C98",
   "status": "partial",
   "theorems": [
    "PSync.c98_false",
    "PSync.c98_interest_partial",
    "PSync.c98_publish_partial"
   ],
   "note": "False as stated: after a hash collision two producers with the same publications can have different IBFs. Proved without collisions, for Interests and for publishName."
  },
  {
   "property": "C99",
   "status": "proved",
   "theorems": [
    "PSync.c99_bound",
    "PSync.c99_alone",
    "PSync.c99_between",
    "PSync.c99_each"
   ],
   "note": "Upper bound on the number of sync Interests, from the start and between any two moments."
  },
  {
   "property": "C100",
   "status": "partial",
   "theorems": [
    "PSync.c100_false",
    "PSync.c100_hello_one",
    "PSync.c100_hello_three",
    "PSync.c100_full_two",
    "PSync.c100_full_partial",
    "PSync.c100_consumer_partial"
   ],
   "note": "False as stated: a consumer's hello Interest below the sync prefix plus one component throws in every full-sync node of the shorter prefix; two and three components more lead to a stray application nack. The partial theorems cover all other Interests."
  },
  {
   "property": "C101",
   "status": "partial",
   "theorems": [
    "PSync.c101_false",
    "PSync.c101_names_partial",
    "PSync.c101_distinct_partial",
    "PSync.c101_accepted",
    "PSync.c101_usage",
    "PSync.c101_too_large",
    "PSync.c101_published_partial",
    "PSync.c101_consumer"
   ],
   "note": "False as stated: with the user prefix //host all streams have the empty name. The partial theorems leave out user prefixes with an equal sign."
  },
  {
   "property": "C102",
   "status": "proved",
   "theorems": [
    "PSync.c102_unique",
    "PSync.c102_shows",
    "PSync.c102_set",
    "PSync.c102_same",
    "PSync.c102_bloom",
    "PSync.c102_bloom_unique",
    "PSync.c102_bloom_same",
    "PSync.c102_state"
   ],
   "note": "c102_state takes the way ndn-cxx prints a name as a parameter: injective, not empty, without commas."
  },
  {
   "property": "C103",
   "status": "proved",
   "theorems": [
    "PSync.c103_same",
    "PSync.c103_reach",
    "PSync.c103_all",
    "PSync.c103_silent",
    "PSync.c103_hello",
    "PSync.c103_refused",
    "PSync.c103_full"
   ],
   "note": "The forwarder answers a registration at most once."
  },
  {
   "property": "C104",
   "status": "proved",
   "theorems": [
    "PSync.c104_full",
    "PSync.c104_full_same",
    "PSync.c104_producer",
    "PSync.c104_producer_same"
   ],
   "note": "c104_producer is for handlers that end; what else a filter can do is in C96."
  },
  {
   "property": "C105",
   "status": "partial",
   "theorems": [
    "PSync.c105_name_partial",
    "PSync.c105_partial",
    "PSync.c105_false"
   ],
   "note": "False as stated (c105_false). Proved for Data whose name components take at most 8742 bytes less the prefix and the filter."
  },
  {
   "property": "C106",
   "status": "proved",
   "theorems": [
    "PSync.c106_full",
    "PSync.c106_producer",
    "PSync.c106_consumer"
   ],
   "note": "Parked and delayed Interests are bounded in time (C30, C31, C43, C72), not in number."
  },
  {
   "property": "C107",
   "status": "proved",
   "theorems": [
    "PSync.c107_interest",
    "PSync.c107_event"
   ],
   "note": "If a timer runs, the same kind has to be due in both."
  },
  {
   "property": "C108",
   "status": "partial",
   "theorems": [
    "PSync.c108_full_reported",
    "PSync.c108_consumer_reported",
    "PSync.c108_resumes_partial",
    "PSync.c108_heard_partial",
    "PSync.c108_false"
   ],
   "note": "The claim is false: numbers at or below the one of the previous life are ignored (witness). Proved: exactly which numbers are reported for a reply, that numbers above the old one are, and that a full-sync member that has heard its old number goes on above it."
  },
  {
   "property": "C109",
   "status": "partial",
   "theorems": [
    "PSync.c109_producer",
    "PSync.c109_full_partial",
    "PSync.c109_again",
    "PSync.c109_false"
   ],
   "note": "Proved for partial sync. For full sync the claim is false: replies of members that still have the prefix bring it back (witness), and its publications are then reported again from 1 on. Partial: without such a reply and without addUserNode it stays absent and nothing of it is reported."
  },
  {
   "property": "C110",
   "status": "partial",
   "theorems": [
    "PSync.c110_producer",
    "PSync.c110_full_partial",
    "PSync.c110_stuck_full",
    "PSync.c110_stuck_consumer",
    "PSync.c110_false"
   ],
   "note": "Proved for partial sync. For full sync the claim is false: a reply with the number 2^64-1, which nobody validates, takes the last number of the prefix (witness), and from then on nothing of it is published or reported. Partial: without a reply with that number, publishName gives a higher number."
  },
  {
   "property": "C111",
   "status": "partial",
   "theorems": [
    "PSync.c111_found_partial",
    "PSync.c111_never",
    "PSync.c111_unheard",
    "PSync.c111_false"
   ],
   "note": "Holds if the filter the producer makes of the transmitted numbers has as many hash functions as the consumer's (C87: for all probabilities of whole thousandths). False otherwise: for 1 subscription and the probability 0.0019 both tables have 2 bytes, so the Interest is read, but the producer asks for 10 hash functions where the consumer used 9 and does not find the subscription. If a prefix is not found, no reply to the Interest ever lists it."
  },
  {
   "property": "C112",
   "status": "partial",
   "theorems": [
    "PSync.c112_bounded_partial",
    "PSync.c112_grows",
    "PSync.c112_false"
   ],
   "note": "Holds as long as only names of the form a consumer sends first are received. False for Interests that ask for a segment of a reply: their timers erase a name that is not in the table, so any number of them (one for each of 256^11 tables in the witness) stays parked for ever at a producer that does not publish."
  },
  {
   "property": "C113",
   "status": "proved",
   "theorems": [
    "PSync.c113_waiting",
    "PSync.c113_parked",
    "PSync.c113_forgets"
   ],
   "note": "Full-sync counterpart of C112, which is false for PartialProducer. The bound of about nine hours for waiting Interests is the 65535 retries of the code; C73 shows one second for Interests that stay ahead of the node."
  },
  {
   "property": "C114",
   "status": "partial",
   "theorems": [
    "PSync.c114_decided_partial",
    "PSync.c114_nine_hours",
    "PSync.c114_false"
   ],
   "note": "Holds if at every retry what the node has to say to the Interest is clear (Decided). False otherwise: when an Interest about /a/2 waits and the node then publishes /a/1, the retry finds only a publication whose successor the sender has, sends nothing (full-producer.cpp:384-404) and does not mark the entry; it is retried 65534 times, for 500 ms times 65535, which is exactly the bound of C31 and C73."
  },
  {
   "property": "C115",
   "status": "partial",
   "theorems": [
    "PSync.c115_partial_sync",
    "PSync.c115_full_partial",
    "PSync.c115_false"
   ],
   "note": "Proved for PartialProducer without exception. For FullProducer it is false: when publishName is called with a number below the current one (for instance after a restart, when the larger number arrived from another node while an Interest was parked), the reply lists the prefix with both numbers (c115_false: /a/5 and /a/3). c115_full_partial: this is the only exception; the smaller number is then the last name, was published by the application, and the rest of the list has each prefix once."
  },
  {
   "property": "C116",
   "status": "proved",
   "theorems": [
    "PSync.c116_same_numbers",
    "PSync.c116_same_reports"
   ],
   "note": "Both hello and sync replies, honest or not, as long as they can be read (an unreadable one throws, C35). Runs are compared by the set of contents processed (contentsHeard); the hello callback itself gets the contents in the order they come."
  },
  {
   "property": "C117",
   "status": "partial",
   "theorems": [
    "PSync.c117_answers_partial",
    "PSync.c117_decodable_partial",
    "PSync.c117_publish_partial",
    "PSync.c117_false"
   ],
   "note": "False as stated: nodes from which different prefixes have been removed answer undecodable sync Interests differently (c117_false), because the count of own elements includes removed numbers; and hash collisions (C22). Proved without collisions: for all Interests if the sums of the removed numbers agree, for decodable Interests whatever was removed, and for publications."
  },
  {
   "property": "C118",
   "status": "partial",
   "theorems": [
    "PSync.c118_rest_partial",
    "PSync.c118_false"
   ],
   "note": "False as stated: a reply that is on its way when a prefix is removed from all nodes brings the prefix back and is reported (c118_false). Proved for runs without removals, with any hash collisions; as in C56, replies to the same Interest carry different versions."
  },
  {
   "property": "C119",
   "status": "proved",
   "theorems": [
    "PSync.c119_left_alone"
   ],
   "note": "all applications; as C75 without hash collisions among published names, with matching parameters, and packets not forged"
  },
  {
   "property": "C120",
   "status": "proved",
   "theorems": [
    "PSync.c120_snapshot",
    "PSync.c120_one_moment"
   ],
   "note": "Every run of a producer and a consumer; see C45 for the assumptions on the run (no forged Data, no hash collisions among published names)."
  },
  {
   "property": "C121",
   "status": "partial",
   "theorems": [
    "PSync.c121_group_partial",
    "PSync.c121_consumer_partial",
    "PSync.c121_full_partial",
    "PSync.c121_replies",
    "PSync.c121_false"
   ],
   "note": "All runs of groups and of a producer with a consumer (assumptions of C56 and C45). False for a forged reply that lists a prefix twice with increasing numbers (c121_false); c121_full_partial says which replies are safe."
  },
  {
   "property": "C122",
   "status": "proved",
   "theorems": [
    "PSync.c122_beyond_own",
    "PSync.c122_by_others",
    "PSync.c122_own"
   ],
   "note": "c122_beyond_own holds for every execution and all received data; the others for all groups (assumptions of C56)."
  },
  {
   "property": "C123",
   "status": "proved",
   "theorems": [
    "PSync.c123_rising",
    "PSync.c123_bound"
   ],
   "note": "c123_rising holds for every execution without removals and all received data; c123_bound for all groups (assumptions of C56)."
  },
  {
   "property": "C124",
   "status": "proved",
   "theorems": [
    "PSync.c124_rising",
    "PSync.c124_bound",
    "PSync.c124_calls",
    "PSync.c124_all"
   ],
   "note": "c124_rising holds for all received data; the others for all runs of a producer and a consumer (assumptions of C45). Needs that the application does not unsubscribe (example). Entries with number 0 are not counted; c124_all: if nobody gives 0 to publishName, there are none."
  },
  {
   "property": "C125",
   "status": "partial",
   "theorems": [
    "PSync.c125_group_false",
    "PSync.c125_consumer_false",
    "PSync.c125_group_partial",
    "PSync.c125_pubsub_partial",
    "PSync.c125_node_partial",
    "PSync.c125_consumer_partial"
   ],
   "note": "False as stated: publishing the number 0 for a new prefix while an Interest is parked makes others report the range from 1 to 0 (c125_group_false, c125_consumer_false). Proved: no range is empty in groups and exchanges in which nobody gives 0 to publishName, and whatever is received, a range with a highest number other than 0 is not empty."
  }
 ]
}