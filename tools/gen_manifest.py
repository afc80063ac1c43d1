#!/usr/bin/env python3
"""Write MANIFEST.json from the table below."""
import json, os
N = "PSync."
C = []
def claim(pid, status, theorems, note):
    C.append({"property": pid, "status": status, "theorems": [N + t for t in theorems.split()], "note": note})

claim("C01", "proved", "c01_net_effect c01_total c01_insert_erase", "All capacities, keys and histories; histories under 2^31 calls always stay in int32 range.")
claim("C02", "proved", "c02_round_trip c02_accepts c02_faithful", "Compression is any lossless codec; acceptance is characterised exactly.")
claim("C03", "partial", "c03_diff_exact_partial c03_false", "False as stated: c03_false exhibits two sets whose difference decodes to a key neither holds. Partial: exact when the 32-bit checksum does not collide on the differing keys.")
claim("C04", "proved", "c04_single_key", "No bound on the number of shared keys.")
claim("C05", "proved", "c05_decodes_iff c05_total c05_two_keys", "Iff with stopping sets, for sets without checksum collision (unconditional for up to two differing keys).")
claim("C06", "proved", "c06_antisymmetric", "Arbitrary cell contents; both differences must be defined (no int32 overflow).")
claim("C07", "partial", "c07_terminates_partial c07_false", "False: for every own set and capacity >= 3 there is a received component on which the peeling loop never ends. Partial: honest IBFs without checksum collision.")
claim("C08", "partial", "c08_no_overflow_partial c08_false c08_overflow c08_any_partial", "False: a received count of -2^31 overflows. Partial: honest IBFs. For tables of any content: counts that differ by 2^31 or more always overflow (c08_overflow), and nothing overflows in the first n passes if they differ by less than 2^31 - n * cells (c08_any_partial).")
claim("C09", "proved", "c09_empty_iff_equal c09_equal_decodes", "Arbitrary cell contents.")
claim("C10", "proved", "c10_murmur_injective c10_check_identifies c10_name_hash", "Bit-exact MurmurHash3.")
claim("C11", "proved", "c11_round_trip", "All interleavings of addContent and wireEncode, from a new or a received State.")
claim("C12", "proved", "c12_decode_exact c12_unambiguous", "Exact characterisation by an independent TLV grammar.")
claim("C13", "proved", "c13_read_back c13_injective c13_injective_wire", "All uint64.")
claim("C14", "proved", "c14_no_false_negative c14_contains_iff", "Includes the exact membership condition.")
claim("C15", "proved", "c15_set_only c15_clear", "")
claim("C16", "proved", "c16_round_trip c16_rejects", "Floating point is an oracle; the same-parameters condition is a hypothesis.")
claim("C17", "partial", "c17_safe_partial c17_exact c17_false c17_false_cast c17_false_zero c17_false_large ieee_at_one ieee_at_zero", "False: probability 1.000 or more with an empty table reads out of bounds or converts infinity; probability 0 converts -inf to unsigned (in IEEE arithmetic, for every count). Partial: computed size between 1 and 2^32-8 bits. c17_exact states exactly when it happens.")

claim("C18", "proved", "c18_full_monotone c18_partial_monotone", "From any state, any events, both producers.")
claim("C19", "proved", "c19_full_publish c19_partial_publish c19_total", "Both producers, all reachable states; old+1 saturates at the largest uint64 (publication of a wrapped number is ignored by updateSeqNo).")
claim("C20", "proved", "c20_add c20_remove c20_calls", "Both producers.")
claim("C21", "partial", "c21_ibf_exact_partial c21_false", "False: c21_false publishes two names with equal 32-bit hash and ends with a stale key in the IBF. Partial: exact when publications current at the same time never collide.")
claim("C22", "partial", "c22_same_ibf_partial c22_false", "False with a hash collision in the history (c22_false). Partial: collision-free histories of either producer kind.")

claim("C23", "proved", "c23_cumulative_count c23_current c23_ibf_partial", "Every Interest in the log of a reachable node. c23_ibf_partial (additional): without collisions the IBF is that of the same moment.")

claim("C53", "proved", "c53_segmentation c53_count", "All buffers.")
claim("C54", "proved", "c54_requested_segment c54_total", "")
claim("C55", "proved", "c55_store_sound c55_keeps_recent c55_expiry", "All histories of publish, expiry and lookup.")
claim("C24", "partial", "c24_false c24_reply_current_partial c24_history_partial", "False as stated: a reply served from the segment store within its freshness period can name an older publication (c24_false). Proved: every freshly generated reply names only current publications, for any Interest; every Data ever sent names only numbers that had been reached.")
claim("C25", "partial", "c25_false c25_reply_complete_partial", "False as stated for stored replies (c25_false). Proved for generated replies without hash or checksum collision, decodable or not; no reply to a decodable Interest means nothing was missing.")
claim("C26", "proved", "c26_merge_max", "All states, all contents, repeated prefixes, calls from inside the callback.")
claim("C28", "partial", "c28_same_numbers c28_same_ibf_partial c28_false", "The prefix->seq map part is proved without restriction. Equality of the IBFs is false with a 32-bit hash collision (c28_false) and proved without.")

claim("C27", "proved", "c27_ranges_tile c27_remote_prefix c27_exactly_once", "All runs. Quirk covered by the statement: an unknown prefix announced with number 0 is reported as the empty range [1,0].")
claim("C29", "partial", "c29_answers_all_partial c29_false c29_exact", "False as stated: a crafted Interest whose name ends in a segment component is dropped without Data (c29_false). Proved for all other parked names, any number of them. c29_exact states for all names which packet each parked Interest gets.")
claim("C30", "partial", "c30_expires_partial c30_renewed c30_only_alive_answered c30_false", "False as stated: an Interest that waited for news is parked with the default lifetime of 4 s instead of its own (c30_false). Partial: received within its lifetime, or retried at most 4 s ago. Renewal and the absence of late answers are proved. Timers may be late by up to cfg.lag, any number; time bounds include it.")
claim("C31", "proved", "c31_bounded c31_at_most_twice", "All runs. Ahead means: no packet for the Interest in memory, not parked, and the difference shows only data we miss (or does not decode and the Interest reports more publications).")
claim("C32", "proved", "c32_scheduled c32_transmits", "For every reachable state of a well-formed configuration; the due timer sends the current Interest and cannot fail. Timers may be late by up to cfg.lag, any number; time bounds include it.")
claim("C38", "partial", "c38_attempt_partial c38_after_reply c38_false c38_event c38_exact", "False as stated: an attempt within 100 ms of the same Interest cancels the outstanding one and sends none (witness). Proved for all other attempts. c38_exact states exactly when an Interest is left outstanding and what happens otherwise.")
claim("C33", "proved", "c33_no_deadlock", "All pairs of reachable states without removals; both differences must be defined (terminating, no int32 overflow).")
claim("C34", "partial", "c34_partial_producer c34_full_partial c34_full_exact c34_false", "False for full sync: a last name component of 3 bytes makes toNumber throw out of the handler (c34_false). Proved for partial sync (sync and hello, every Interest) and for full sync when the component read as a number has 1, 2, 4 or 8 bytes; c34_full_exact states exactly which Interests raise the exception.")
claim("C36", "partial", "c36_nack_matches_partial c36_full_never c36_false", "False for full sync: a nack never satisfies the Interest (c36_full_never), witness c36_false. Proved for partial sync with the Interest form of the consumer.")
claim("C37", "partial", "c37_full_partial c39_publish_current c37_false c37_exact", "False: publishName with a number not above the current one changes nothing but announces it to parked Interests (c37_false). Proved for publications that raise the number, and for partial sync (always the current number). c37_exact states exactly what is announced and when it is stale.")
claim("C39", "partial", "c39_reply_sound_partial c39_publish_current c39_history c39_false", "False for replies taken from the segment store (witness c39_false). Proved for all other answers to Interests and for all answers made by publishName.")
claim("C40", "proved", "c40_reply_complete", "The reply consists of exactly the missing subscribed publications, for Interests carrying the IBF of any reachable state without hash collisions.")
claim("C41", "proved", "c41_nack_condition", "All states and all well-formed Interests.")
claim("C42", "proved", "c42_publish_serves c39_publish_current", "Served treats any number of parked Interests one by one.")
claim("C43", "partial", "c43_expires_partial c43_false", "False for Interests with version and segment number: their entry never expires (witness c43_false). Proved for names that were only received in the plain form. Timers may be late by up to cfg.lag, any number; time bounds include it.")
claim("C44", "proved", "c44_hello_reply c44_other_ignored", "All states and hello Interests.")
claim("C46", "proved", "c46_ranges c46_ranges_new c46_sync_merge c46_hello_merge", "Ranges notified tile; numbers never decrease and follow the largest announcement, in any reachable execution.")
claim("C47", "partial", "c47_add_partial c47_remove c47_reflects c47_false", "The claim is false: a late sync Data after removeSubscription leaves a number behind and the next addSubscription is refused (c47_false). Proved: addSubscription exactly when no number is recorded, removeSubscription exactly, isSubscribed reflects the calls.")
claim("C48", "partial", "c48_origin_partial c48_false c48_false_hello", "The claim is false: prefixes can be reported after unsubscribing. Proved: what sync Data causes to be reported is announced in that Data with a larger number, and hello Data only reports subscribed prefixes.")
claim("C49", "proved", "c49_filter c49_filter_current", "Every Interest is the hello Interest or carries the filter of the subscriptions at the moment of sending.")
claim("C50", "partial", "c50_stop c50_stop_in_hello c50_false", "stop() from the event loop or last in the hello callback silences the consumer for good; false for stop() in the update callback of a sync reply.")
claim("C51", "partial", "c51_nack c51_later_partial c51_completed c51_false", "One hello Interest per nack and nothing else changes; later Data with a FinalBlockId is never misread, nor any later Data once the fetch of the nack has completed; false for Data without FinalBlockId after an incomplete nack.")
claim("C52", "partial", "c52_format_partial c52_exact c52_unserved c52_ibf_hello c52_ibf_sync c52_false c87_interest", "Holds for probabilities that survive the transmission in thousandths (C87: all literals of whole thousandths); false otherwise (witness 0.0019). For every probability: the producer can read the Interest exactly if the filter it computes has as many bytes as the consumer's; if not, it never answers or keeps any sync Interest of this consumer.")
claim("C35", "partial", "c35_hello_exact c35_sync_exact c35_honest_proper c35_full_partial c35_full_total c35_full_exact c35_witnesses c35_false", "The claim is false (witnesses for both receivers). Proved: exactly which contents a consumer survives, exactly which contents a full producer survives for whose answer nobody waits, that producers only send such contents, and that a full producer raises no exception on contents whose names end in numbers.")
claim("C56", "partial", "c56_no_invention_partial c56_publisher c56_false", "False as stated: c56_false gives a run in which two nodes answer one Interest in the same millisecond with two-segment replies and the receiver assembles a sequence number nobody published. Proved for every group size and schedule in which no two replies carry the same version. c56_publisher ties published to calls of publishName.")
claim("C57", "partial", "c57_converge_partial c57_sample c57_false", "False as stated: c57_false is an exchange answered from the segment store with an outdated reply. Proved for every group size and every order of exchanges that are answered freshly, without removals, hash collisions or equal versions.")
claim("C45", "partial", "c45_up_to_date_partial c45_up_to_date_many_partial c45_false c45_false_stale", "False as stated: a subscription added while a sync Interest is pending, or added with a number below the one in the hello reply, is never brought up to date (c45_false, c45_false_stale). Proved for applications that add subscriptions while no sync Interest is pending and with current numbers, for all runs with loss, delay, duplication, reordering and caching, without hash collisions among published names.")
claim("C58", "partial", "c58_partial_producer c58_full_partial c58_false", "Proved for PartialProducer; for FullProducer it is false (c58_false: Data with news arrives while an Interest is parked, onSyncData does not satisfy it), and true as long as the IBF changes only by own publications (c58_full_partial)")
claim("C59", "proved", "c59_never_silent c59_timer_sends c59_needs_callback", "All runs whose sync fetches complete only after a packet with FinalBlockId (ndn-cxx SegmentFetcher). c59_needs_callback: the condition on the hello callback cannot be dropped.")
claim("C60", "proved", "c60_never_fails", "Hypotheses: same parameters, lossless codecs, distinct reply versions, replies and names that fit in packets, no hash or checksum collision among the published names (numbers in P). Strangers' packets can make a node fail: C34, C35.")
claim("C61", "proved", "c61_never_fails c61_needs_hello", "Hypotheses: matching parameters, lossless IBF codec, replies and names that fit in packets, distinct versions of different replies, no hash or checksum collision among the published names (numbers in K), fuel of the peeling loop above the number of differences. Crafted packets can make both sides fail: C34, C35, C36, C43.")
claim("C62", "partial", "c62_subscribes_partial c62_every_hello_partial c62_only_hello c62_at_most c62_false c62_out_of_bounds", "false as stated: a second hello reply (after a nack) adds further subscriptions, and a hello with fewer prefixes than asked for is an out-of-bounds read; proved for the first hello reply of any run; for later ones exactly what they add, and the resulting bound")
claim("C63", "proved", "c63_prints_consecutive", "all histories of the example consumer")
claim("C64", "partial", "c64_consumer_partial c64_full_partial c64_consumer_hangs c64_full_hangs c64_false", "false as stated: the loop never ends for a range up to 2^64-1; proved for all other ranges")
claim("C65", "partial", "c65_part_partial c65_full_partial c65_part_value c65_full_value c65_zero c65_full_false", "false as stated for the limit 0 (one publication) and, in full sync, for a node whose old numbers the group remembers; proved for partial sync with a limit of at least 1; for full sync the bounds on number and order of publications (and the full claim inside a group whose streams are its own: C80, c80_own)")
claim("C66", "partial", "c66_rounds_partial c66_false c66_sample", "False if a reply that was already stored when a round began is used again (c66_false); proved for rounds at whose start the asked node stores no reply to the Interest, without removals, collisions and equal versions.")
claim("C67", "proved", "c67_wait_out", "Timers may be late by up to cfg.lag, any number; time bounds include it.")
claim("C68", "partial", "c68_timed_partial c68_sample c68_false", "False if nodes use different values of syncReplyFreshness (c68_false); proved for equal values, without publications of number 0, removals, collisions and equal versions. Timers may be late: 2*(clock difference) + lag < 90 ms.")
claim("C69", "proved", "c69_retry c69_renew c69_pace", "Timers may be late by up to cfg.lag, any number; time bounds include it.")
claim("C70", "proved", "c70_spacing", "")
claim("C71", "proved", "c71_waiting c71_asking c71_reply c71_hello", "waiting consumer is up to date; a late one is answered at once unless from the store; processed replies bring the state named in the packet")
claim("C72", "partial", "c72_false c72_full_partial c72_partial_producer", "False for full sync: a parked Interest with the name of the node's own outstanding one is dropped when a reply to the latter arrives.  Proved without that case, for min(lifetime, 4000 ms) (a retry parks for 4000 ms) and names not ending in a segment number.  Partial sync: proved for names not ending in a segment number.")
claim("C73", "proved", "c73_retried c73_ahead c73_never_forever", "assumes jitter within its bounds (WF). Timers may be late by up to cfg.lag, any number; time bounds include it.")
claim("C74", "proved", "c74_full c74_full_empties c74_partial_producer c74_partial_producer_empties", "the version of a reply is arbitrary; names of replies made by publications are bounded by the number at that moment. Timers may be late by up to cfg.lag, any number; time bounds include it.")
claim("C75", "proved", "c75_offered c75_notified c75_known c75_not_ahead", "all applications; as in C45 without hash collisions among published names, with matching parameters, and packets not forged")
claim("C76", "proved", "c76_prints_all c76_prints_at_least c76_up_to_date c76_published", "as C75; an application nack completes its fetch in the event handler that receives it (NackAtOnce), as SegmentFetcher does for one-packet Data")
claim("C77", "proved", "c77_arrival", "")
claim("C78", "proved", "c78_arrival c78_honest", "")
claim("C79", "proved", "c79_full c79_partial_sync", "also that the stored segments are found under their own names")
claim("C80", "proved", "c80_foreign c80_own c80_others c80_nothing_else c80_everything", "the non-vacuity witness c80_sample meets the hypotheses of all of them")
claim("C81", "proved", "c81_time c81_rounds", "in rounds: c81_rounds; hypotheses as in the quantifier; sample run c81_sample")
claim("C82", "proved", "c82_pace", "Model: Spec.CRun is a run of the consumer with arbitrary events, in which a sync fetch completes only after a packet with FinalBlockId; FetchesEnd is the promise of the SegmentFetcher. c82_sample: hello, sync, nack, failed hellos and a failed sync, with silences below the bound.")
claim("C83", "proved", "c83_time c83_told", "Model: Spec.PSRun (as C45, C71), with the clocks of both sides; PSPrompt is the promise of the network from a moment on. c83_sample: a reply is lost, the retry is answered from the segment store, and the run goes on beyond the bound.")
claim("C84", "proved", "c84_published c84_time c84_sample", "Timers may be late by the lag of the model; the promise about the network is Spec/Fair.lean, Prompt (of the producers inside the programs).")
claim("C85", "proved", "c85_prints c85_programs", "Stated for runs of both programs (Spec/ExampleRun.lean, Spec/ExampleDuo.lean). NackAtOnce as in C76; timing assumptions as in C83 (PSPrompt, FetchesEnd).")
claim("C86", "partial", "c86_full c86_full_superseded c86_consumer_superseded c86_consumer_exact c86_stopped_partial c86_producer_exact c86_false_consumer c86_false_producer c86_false", "Proved for FullProducer. False for Consumer (no destructor: a fetch that runs calls back; exactly when one is outstanding; safe after stop()) and for PartialProducer (the handles of its Interest filters are dropped).")
claim("C87", "proved", "c87_literal c87_unique c87_interest c87_range", "IEEE 754 arithmetic modelled on bit patterns.")
claim("C88", "partial", "c88_false c88_false_probability c88_false_overflow c88_false_endless c88_producer_exact c88_full_exact c88_producer_partial c88_full_partial", "False as stated; the exact conditions under which the handler of an Interest fails are proved for every state. Missing: arbitrary IBFs and filter parameters, for which the claim is false (C08, C17).")
claim("C89", "partial", "c89_false c89_partial_producer c89_each c89_full_partial c89_distinct_partial", "False as stated: a FullProducer answers the retries of a waiting Interest from memory although the same Interest was parked and answered meanwhile (c89_false). True for PartialProducer; true for FullProducer as long as no Interest is in both lists, in particular if no name is received twice.")
claim("C90", "partial", "c90_full c90_full_interest c90_producer_partial c90_oversized c90_false", "False as stated: c90_false is a PartialProducer within the stated options that answers a sync Interest of 4194 bytes with a Data of 8828 bytes, because the Data repeats the name of the Interest, appends another IBF and may carry 4400 bytes of content. Proved: it holds for the FullProducer in every run (c90_full; its Interests have a size given by the options, c90_full_interest), and for the PartialProducer if the received sync Interest names, the IBF and the signature together have at most 4337 bytes (c90_producer_partial). c90_oversized is the lower bound on the size of every fresh answer.")
claim("C91", "proved", "c91_mixed c91_good c91_model", "For every number of hash functions and every sequence of random numbers: whenever the loop ends, the salts are as many as asked for, pairwise different and not zero (c91_good); c91_mixed states the mixing exactly; c91_model links the loop to the salts used in the model of the filter, which are the same for equal numbers of hash functions. That the random loop ends is not claimed (rand() is outside the code).")
claim("C92", "proved", "c92_reasons c92_exact c92_kinds", "For every run. The reasons are counted per event from the state before it; events of fetches that were stopped or replaced are no reasons. See C51 for the nack with several segments, C59 and C82 for the other direction over time.")
claim("C93", "proved", "c93_timer c93_news c93_listed", "All reachable states. An Interest whose last component is marked as a segment number is only covered up to the answer from the store.")
claim("C94", "partial", "c94_dispatch c94_default c94_wf c94_construct_partial c94_content c94_part c94_default_partial c94_false c94_default_false", "False as stated: c94_false is a FullProducer whose scheme for the content is missing and that is constructed all the same, c94_default_false two nodes with default options, built with and without zlib, that do not understand each other. Proved: the dispatch for all builds, schemes and buffers (c94_dispatch); a FullProducer is refused exactly if the scheme for the IBF is missing (c94_construct_partial); if that for the content is missing it never sends anything but Interests and nacks and never reports anything (c94_content); a PartialProducer without its scheme never sends anything and throws on every hello (c94_part); nodes built with the same zlib, or both without, understand each other's Interests (c94_default_partial). That Boost's algorithms are lossless is assumed.")
claim("C95", "partial", "c95_full_partial c95_part_partial c95_zero_full c95_zero_part c95_old_full_partial c95_old_part_partial c95_old_publish c95_default c95_false c95_old_false", "False as stated: with ibfCount = 0 a producer is constructed and divides by zero with the first publication (c95_false, c95_zero_full, c95_zero_part); the deprecated constructors cut a count given as size_t to 32 bits (c95_old_false, c95_old_publish). Proved: with ibfCount > 0 the first publication works, and with a count below 2^32 the deprecated constructors do what they should.")
claim("C96", "partial", "c96_false c96_false_interest c96_rejects c96_served_partial", "False as stated: a consumer with a probability below 0.001 sends the number 0, and every producer that receives one of its sync Interests has undefined behaviour. Partial: probabilities that are literals k/1000.")
claim("C97", "partial", "c97_false c97_exact c97_old c97_false_tiny c97_false_large c97_false_nan c97_false_coarse c97_accurate_partial c97_range_partial c97_default c97_false_many c97_false_single", "False as stated: with a tiny probability or very many subscriptions the constructor converts a number that does not fit, with a coarse one the table has no bytes. Partial: exactly when a consumer works, in terms of the computed sizes for every math library, and of real numbers for an accurate one.")
claim("C98", "partial", "c98_false c98_interest_partial c98_publish_partial", "False as stated: after a hash collision two producers with the same publications can have different IBFs. Proved without collisions, for Interests and for publishName.")
claim("C99", "proved", "c99_bound c99_alone c99_between c99_each", "Upper bound on the number of sync Interests, from the start and between any two moments.")
claim("C100", "partial", "c100_false c100_hello_one c100_hello_three c100_full_two c100_full_partial c100_consumer_partial", "False as stated: a consumer's hello Interest below the sync prefix plus one component throws in every full-sync node of the shorter prefix; two and three components more lead to a stray application nack. The partial theorems cover all other Interests.")
claim("C101", "partial", "c101_false c101_names_partial c101_distinct_partial c101_accepted c101_usage c101_too_large c101_published_partial c101_consumer", "False as stated: with the user prefix //host all streams have the empty name. The partial theorems leave out user prefixes with an equal sign.")
claim("C102", "proved", "c102_unique c102_shows c102_set c102_same c102_bloom c102_bloom_unique c102_bloom_same c102_state", "c102_state takes the way ndn-cxx prints a name as a parameter: injective, not empty, without commas.")
claim("C103", "proved", "c103_same c103_reach c103_all c103_silent c103_hello c103_refused c103_full", "The forwarder answers a registration at most once.")
claim("C104", "proved", "c104_full c104_full_same c104_producer c104_producer_same", "c104_producer is for handlers that end; what else a filter can do is in C96.")
claim("C105", "partial", "c105_name_partial c105_partial c105_false", "False as stated (c105_false). Proved for Data whose name components take at most 8742 bytes less the prefix and the filter.")
claim("C106", "proved", "c106_full c106_producer c106_consumer", "Parked and delayed Interests are bounded in time (C30, C31, C43, C72), not in number.")
claim("C107", "proved", "c107_interest c107_event", "If a timer runs, the same kind has to be due in both.")
claim("C108", "partial", "c108_full_reported c108_consumer_reported c108_resumes_partial c108_heard_partial c108_false", "The claim is false: numbers at or below the one of the previous life are ignored (witness). Proved: exactly which numbers are reported for a reply, that numbers above the old one are, and that a full-sync member that has heard its old number goes on above it.")
claim("C109", "partial", "c109_producer c109_full_partial c109_again c109_false", "Proved for partial sync. For full sync the claim is false: replies of members that still have the prefix bring it back (witness), and its publications are then reported again from 1 on. Partial: without such a reply and without addUserNode it stays absent and nothing of it is reported.")
claim("C110", "partial", "c110_producer c110_full_partial c110_stuck_full c110_stuck_consumer c110_false", "Proved for partial sync. For full sync the claim is false: a reply with the number 2^64-1, which nobody validates, takes the last number of the prefix (witness), and from then on nothing of it is published or reported. Partial: without a reply with that number, publishName gives a higher number.")
claim("C111", "partial", "c111_found_partial c111_never c111_unheard c111_false", "Holds if the filter the producer makes of the transmitted numbers has as many hash functions as the consumer's (C87: for all probabilities of whole thousandths). False otherwise: for 1 subscription and the probability 0.0019 both tables have 2 bytes, so the Interest is read, but the producer asks for 10 hash functions where the consumer used 9 and does not find the subscription. If a prefix is not found, no reply to the Interest ever lists it.")
claim("C112", "partial", "c112_bounded_partial c112_grows c112_false", "Holds as long as only names of the form a consumer sends first are received. False for Interests that ask for a segment of a reply: their timers erase a name that is not in the table, so any number of them (one for each of 256^11 tables in the witness) stays parked for ever at a producer that does not publish.")
claim("C113", "proved", "c113_waiting c113_parked c113_forgets", "Full-sync counterpart of C112, which is false for PartialProducer. The bound of about nine hours for waiting Interests is the 65535 retries of the code; C73 shows one second for Interests that stay ahead of the node.")
claim("C114", "partial", "c114_decided_partial c114_nine_hours c114_false", "Holds if at every retry what the node has to say to the Interest is clear (Decided). False otherwise: when an Interest about /a/2 waits and the node then publishes /a/1, the retry finds only a publication whose successor the sender has, sends nothing (full-producer.cpp:384-404) and does not mark the entry; it is retried 65534 times, for 500 ms times 65535, which is exactly the bound of C31 and C73.")
claim("C115", "partial", "c115_partial_sync c115_full_partial c115_false", "Proved for PartialProducer without exception. For FullProducer it is false: when publishName is called with a number below the current one (for instance after a restart, when the larger number arrived from another node while an Interest was parked), the reply lists the prefix with both numbers (c115_false: /a/5 and /a/3). c115_full_partial: this is the only exception; the smaller number is then the last name, was published by the application, and the rest of the list has each prefix once.")
claim("C116", "proved", "c116_same_numbers c116_same_reports", "Both hello and sync replies, honest or not, as long as they can be read (an unreadable one throws, C35). Runs are compared by the set of contents processed (contentsHeard); the hello callback itself gets the contents in the order they come.")
claim("C117", "partial", "c117_answers_partial c117_decodable_partial c117_publish_partial c117_false", "False as stated: nodes from which different prefixes have been removed answer undecodable sync Interests differently (c117_false), because the count of own elements includes removed numbers; and hash collisions (C22). Proved without collisions: for all Interests if the sums of the removed numbers agree, for decodable Interests whatever was removed, and for publications.")
claim("C118", "partial", "c118_rest_partial c118_false", "False as stated: a reply that is on its way when a prefix is removed from all nodes brings the prefix back and is reported (c118_false). Proved for runs without removals, with any hash collisions; as in C56, replies to the same Interest carry different versions.")
claim("C119", "proved", "c119_left_alone", "all applications; as C75 without hash collisions among published names, with matching parameters, and packets not forged")
claim("C120", "proved", "c120_snapshot c120_one_moment", "Every run of a producer and a consumer; see C45 for the assumptions on the run (no forged Data, no hash collisions among published names).")
claim("C121", "partial", "c121_group_partial c121_consumer_partial c121_full_partial c121_replies c121_false", "All runs of groups and of a producer with a consumer (assumptions of C56 and C45). False for a forged reply that lists a prefix twice with increasing numbers (c121_false); c121_full_partial says which replies are safe.")
claim("C122", "proved", "c122_beyond_own c122_by_others c122_own", "c122_beyond_own holds for every execution and all received data; the others for all groups (assumptions of C56).")
claim("C123", "proved", "c123_rising c123_bound", "c123_rising holds for every execution without removals and all received data; c123_bound for all groups (assumptions of C56).")
claim("C124", "proved", "c124_rising c124_bound c124_calls c124_all", "c124_rising holds for all received data; the others for all runs of a producer and a consumer (assumptions of C45). Needs that the application does not unsubscribe (example). Entries with number 0 are not counted; c124_all: if nobody gives 0 to publishName, there are none.")
claim("C125", "partial", "c125_group_false c125_consumer_false c125_group_partial c125_pubsub_partial c125_node_partial c125_consumer_partial", "False as stated: publishing the number 0 for a new prefix while an Interest is parked makes others report the range from 1 to 0 (c125_group_false, c125_consumer_false). Proved: no range is empty in groups and exchanges in which nobody gives 0 to publishName, and whatever is received, a range with a highest number other than 0 is not empty.")
#MORE

here = os.path.dirname(os.path.abspath(__file__))
json.dump({"claims": C}, open(os.path.join(here, "..", "MANIFEST.json"), "w"), indent=1, ensure_ascii=False)
print(len(C), "claims")
