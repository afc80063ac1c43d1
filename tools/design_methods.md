C01: IBF cells as a vector; insert and erase add or subtract a signed key in up to three cells. The content of a cell
is a function of the multiset of signed keys (`Proofs/IbltSpec`), so two histories with the same net effect give the same vector.
Overflow is excluded by an explicit bound on the number of calls (`c01_total`) and by hypothesis otherwise.
C02: The big-endian cell codec and the codec parameter. Byte-level round trip; acceptance is exactly "decompresses to
12 bytes per cell".
C03: The peeling loop of `operator-`. Invariant: the remaining table is the table of the remaining signed keys, so a cell that looks
pure is pure unless the checksum collides. The refutation is a real 32-bit collision found offline and checked by the kernel.
C04: C03 with one differing key; the checksum hypothesis is discharged by injectivity of the key hash (C10).
C05: Peeling removes keys that are alone in a cell; it stops exactly at a non-empty stopping set. The specification defines stopping sets
without the loop.
C06: Simulation between the two runs under negation of all counts.
C07: A crafted cell looks pure for ever because peeling its key restores it. For honest IBFs the number of remaining keys
decreases.
C08: `c08_any_partial` holds for tables of any content: one pass moves a count by at most one per cell. Counts are checked at every addition in the model; refuted by a received count of -2^31; for honest IBFs counts are bounded
by the number of keys.
C09: No cell is pure in an all-zero table, and a table that decodes to nothing was zero.
C10: Composition of bijections on 32-bit words for 4-byte inputs; names: composition with the C++ byte order.
C11: State as content list plus cached wire; the cache invariant is that the wire is the encoding of the content.
C12: The accepted byte strings are described by a TLV grammar of their own (`Spec/Tlv`); soundness and completeness of the parser.
C13: Case split over the four widths.
C14: Bits are only set by insert; contains tests the bits insert sets.
C15: The table is the union of the bit sets of the inserted names.
C16: Parameters are recomputed at the receiver; round trip if the oracle gives the same parameters for the transmitted probability.
C17: `c17_false_zero` and `c17_false_large` refute the claim in IEEE arithmetic (Model/Ieee.lean) for every count with probability 0 and, with an empty table, for every probability of 1 or more. `c17_exact` gives the condition under which undefined behaviour happens, in both directions. Index bounds of the table; refuted with oracle values that IEEE arithmetic does produce (probability 1.000 gives size 0;
probability 0 gives minus infinity).
C18: Invariant over all events of both producers; the comparison in updateSeqNo.
C19: Case analysis of updateSeqNo with the invariants of the table (`Base.Inv`); the case of a wrapped number is included.
C20: Association list lemmas.
C21: The history of the table records which publications were current at each update; without a hash collision among names current at
the same time the bimap is exact and the IBF is the one of the current names. Refutation: two names with equal MurmurHash3.
C22: Corollary of C21 and C01.
C23: `numOwn` counts insertions; every Interest in the log carries the value and IBF of a moment of the history.
C24: Generated content is looked up in the current table. Replies from the store: the history of sent packets (`Proofs/MicroLog`).
C25: C03/C05 applied to the two tables, C21 to translate hashes to names; when the difference does not decode, the reply is the entire table or
the Interest waits.
C26: Induction over the names in the content; the table after the loop is the pointwise maximum.
C27: The ranges in the log, per prefix, tile an interval (`Proofs/Tiling`); invariant over all events.
C28: Corollary of C26 for permutations and repetitions.
C29: Induction over the parked list; each iteration sends the first packet of a reply for that name. `c29_exact` drops the condition on names: the packet with the number in the last component is sent, or none if the reply is shorter.
C30: Each parked entry has a deadline; provenance of the deadline (received, or retried from the waiting list).
C31: Each waiting entry has a counter; at most two retries, each bound to a timer.
C32: Invariant `Alive`: a sync timer is scheduled in every reachable state; when it fires, nothing in sendSyncInterest can fail.
C33: Comparison of the two counters of cumulative publications; the node that has published at least as many answers.
C34: Every branch of the Interest handlers, including exceptions in TLV parsing, IBF decompression, and toNumber. `c34_full_exact`: the exception is raised if and only if the store has no answer, two components follow the sync prefix, and the last is no number of 1, 2, 4 or 8 bytes.
C35: Every branch of the Data handlers; exact description of the contents a consumer survives, and of those a full-sync node survives that owes nobody an answer (`c35_full_exact`).
C36: The nack name is Interest name plus version plus segment; whether it is under the Interest name depends on its form.
C37: The content of satisfyPendingInterests contains the argument of publishName. `c37_exact`: everything else in it is current, and the argument is current iff its number is not 0 and not below the old one.
C38: Case analysis of sendSyncInterest with the 100 ms guard; `c38_exact` is an equivalence.
C39: Generated content is looked up in the current table; the history of all packets sent (`c39_history`) covers stored replies.
C40: As C25, with the filter.
C41: Case analysis.
C42: `Served` describes, entry by entry, what happens to a parked Interest; induction over the list.
C43: As C30; refuted with the form of name that the timer does not erase.
C44: Case analysis; content is the encoding of the whole table with number 0 included.
C45: Producer and consumer over a network. Invariant: what the consumer does not know yet is missing from the IBF it sends (`Proofs/PubSub`);
completion of a fetch ties the content to a reply of the producer (`Proofs/PubSubFetch`).
C46: Tiling of ranges as in C27, on the consumer log.
C47: Case analysis; history of calls.
C48: Provenance of each reported range.
C49: The log contains, for each sync Interest, the filter of the subscriptions at that moment; C15 for independence of order.
C50: After stop there is no timer and no fetcher, and no event but an API call changes that.
C51: Case analysis of onSyncData/content type; fetch discipline for the later Data.
C52: Composition of C16, C02 and the name format. The exact condition (`c52_exact`) and its other side (`c52_unserved`: a consumer whose table has another size than the producer computes is never served) in Props/WireExact.lean, from the names that can be in the store of a producer.
C53: `List` lemmas on chunks of the buffer.
C54: Case analysis of `publish`.
C55: FIFO store with expiry; invariant over all histories.
C56: Group model. Invariant by micro-steps: every number in a table, a reply or a notification was published by some node
(`Sourced`). Reassembly of segments of one version gives back one reply.
C57: Pointwise maximum as a join; an exchange that is answered freshly makes the receiver at least as large as the answering node;
induction over the exchanges.
C58: For partial sync an invariant on parked entries (`ParkedIdle`) against all earlier tables of the producer; for full sync
parked names carry the current IBF as long as no Data changes the table.
C59: Invariant over all events; a nack is tied to the hello Interest it causes through the window of one sync fetch.
C60: Invariant over group runs: every table, parked IBF and waiting Interest holds only keys of published names (`Safe`), so
every IBF subtraction can be peeled without a checksum collision (C05) and every name in a reply ends in a number; each handler is
then shown to return. Interests are traced back to an earlier table of their sender.
C61: Each consumer together with the producer is a run of two (`MRun.view`: events at other consumers look like the passing of no
time), so the lemmas of C45 on what a fetch delivers apply. Consumer invariant: it has sent only Interests with a usable filter and the
IBF of a former table of the producer, and holds such an IBF whenever something may ask with it. Producer invariant: its table and
all parked IBFs hold only keys of published names, and parked filters are usable. Each handler is then shown to return.
C62: The example application is a state machine around the consumer of the model: the hello callback becomes the list of calls
the application makes in it. Proved for the first hello reply; false for a second one (a nack makes the consumer say hello again,
and the callback subscribes again), and with fewer prefixes than asked for the loop reads beyond the end of the vector. For every hello callback, the first or a later one (`c62_every_hello_partial`): the subscriptions afterwards are the earlier ones and those picked that had no number; no other event changes them (`c62_only_hello`), so there are at most as many as asked for times the number of hello callbacks (`c62_at_most`).
C63: The ranges reported for a prefix tile (C46); the printing loop is a fuelled loop shown to print exactly its range.
C64: The loop counter is a uint64_t; the loop ends iff the range does not end at 2^64-1. The fuel suffices for all other ranges, and
with the end 2^64-1 the loop condition holds for every value of the counter, so that no fuel suffices.
C65: Invariant per stream of the number, the published numbers and the scheduled updates, over all interleavings with network events.
C66: In a round in which no number changes, two nodes that both stay silent on an undecodable difference would each have to claim the larger sum of numbers, or see only names of the other side; the second excludes itself by antisymmetry of the difference (C06).  The publications not heard of decrease strictly in every other round.
C67: An invariant of the waiting node (flag set, timer not yet due, fetcher idle) is kept by every event but the timer and a publication; the timer is never overdue (C32).
C68: A node that fetched an old reply waits longer (C67) than the reply can stay in the store of its sender (invariant on the erasure timers), so its next Interest is answered from the table; then C66 applies to every second round.
C69: Every event is split into small steps on the timing state (Proofs/Acts.lean).  As long as no Interest is sent and no fetch goes on, the timer is not moved, and it is never overdue (C32); a fetch ends at most once before that.
C70: Invariant over the small steps: the last Interest since the start is remembered with its time, or Data was sent under its name.
C71: From the invariants of C45 (the table the consumer holds is one of the producer's; the flying Interest carries it and a filter accepting the subscribed prefixes; a parked Interest misses nothing it subscribed to), extended with the name of the packet that was delivered.
C72: An entry is found with a timer not before the end of its lifetime; every event keeps that, or sends Data under the name, or is one of the exceptions (Proofs/Kept.lean for full sync; C42 for a publication in partial sync).
C73: Invariant over all events: the timer of the waiting list is set, to at most 500 ms ahead, whenever the list is not empty; it is not moved while it is set (Proofs/Retry.lean).  With the counts of C31.
C74: Every stored packet has an erasure timer set when its reply was made (Proofs/StoreTime.lean, Proofs/Stale.lean): packet and timer disappear together, and time does not pass a deadline. The reply itself is that of C24/C39 in the state where it was made.
C75: Every IBF the consumer holds and every sync Interest it sends comes from a table of the producer (the invariant of C61, here without its assumptions on Interests); so a completed fetch delivers a reply of a table, and reading it adds only numbers of that table (Proofs/Told.lean). A nonzero number of a table goes back to a publishName event.
C76: The example consumer does at most one thing at a time - a fetch or a timer - except between an application nack and the completion of that fetch (Proofs/ExampleRun.lean, `Chain`); so it subscribes only while no sync Interest is pending, with the numbers of the IBF it holds, which is the condition of C45 (`careful`). C71 and C75 then pin its number to the producer's, C46/C63 the printed lines to its number.
C77: Case analysis of the handler, with the invariant that a parked entry holds the filter and IBF its name carries.
C78: Case analysis of the handler; for the Interest of another node the decoded difference is that of the publications (C03), and hashes are injective on the names compared.
C79: Handlers as sequences of small actions with the clock (Proofs/Micro.lean); the packets of the reply keep a bounded number of newer packets behind them in the FIFO store, and every timer for their names is due at the end of the freshness or later (Proofs/Fetchable.lean). The condition on names holds when versions (time stamps) of replies with the same name differ.
C80: A run of the programs is, after the constructors, event for event a run of the producers (Proofs/AppGroup.lean, `asGroup`), in which nothing is removed and only the owner publishes a stream. C27 ties printed lines to the producer's number; C56 gives that every number was published by the owner, so the owner learns nothing about its own streams; C57 gives the last sentence. One program alone: `c80_foreign`, whatever packets arrive.
C81: Of a node with the fewest publications, no Interest of the second of two quiet rounds can go unanswered as long as another node has something it lacks (Proofs/FairAny.lean, `polledTwice`): whoever knows more has a reply, fresh or at least newer than the last round, and any reply fetched brings something new, since replies are made for the difference (`GoodReply`, `Answerable`). So two rounds without change mean that all tables are equal. Rounds from time: a node sends an Interest at least every W ms (C69), and clocks cannot run ahead of events (Proofs/FairPrompt.lean). That the fetch completes is part of the promise about the network, since a node may stop a fetch when it gives up a waiting Interest.
C82: Without a new Interest, a consumer that is busy (C59) passes through at most: a sync fetch, a hello fetch that a nack started before, and a retry timer (at most 500 ms plus the lag, `muteTimers`), in this order and each at most once (Proofs/ConsumerPace.lean, `step_unsent`). That a fetch ends within L ms is a promise of the SegmentFetcher (Spec/ConsumerRun.lean, `FetchesEnd`): ndn-cxx gives up after maxTimeout.
C83: C82 gives an Interest of the consumer at a time when everything in the producer's store was made after the moment in question (C74, with the events of the producer numbered in the run: `madeAt`, `recent`). When the producer receives it, either it sends nothing, and then the consumer is up to date (C71), or it sends a packet of a recent reply, and the consumer that completes the fetch holds the IBF of that reply (`syncExchange`; all packets of a fetch carry the same IBF, `sync_delivered`), so it is up to date with it (C45); or a nack, and then the hello exchange that follows does it (`helloExchange`). What the application is told: C46. The network's promise (Spec/PubSubPrompt.lean, `PSPrompt`) includes that the consumer does not start another fetch of the same kind before the first is complete.
C84: While an update of a stream with number k is scheduled, it is due at (k+1)·D + k·late at the latest (Proofs/AppGroupPrompt.lean, `Soon`), and k is below the limit (C80), which gives the first sentence. At the event that empties the last timer list the clocks are known within d (`idleFrom`), and from there on nothing is published, so C81 applies to the run of the producers (`Prompt.shift`, with the run of C80); every publication is one of the updates (`allUpdates`), so not more than x are missing and the numbers of no table add up to more than all updates. C80 turns equal numbers into printed lines.
C85: The example consumer meets the conditions of C83 on applications: it subscribes only as C45 demands (C76), calls sendSyncInterest in every hello callback and never stop, never removes a subscription (Proofs/ExampleDuo.lean, `goesOn`, `stays`), and its first event is a hello Interest (`starts`). So C83 applies, C75 bounds its number from above, and C72/C76 turn numbers into printed lines. For the example producer the argument of C84 is repeated with the partial-sync producer (`PartApp.Soon`, `Produces.finished`). `c85_sample` is a run of the two programs in which the first update's reply is lost and then served, too old, from the segment store.
C86: Model/Lifetime says what the Face still holds when an object is destroyed, from the members of each class; the state of a
producer or consumer counts the fetchers that run without a pointer to them (`orphans`), and every function that replaces a
fetcher is shown to leave none. False as stated: Consumer has no destructor that stops its fetchers, PartialProducer keeps no
handle of its two Interest filters; `c86_consumer_exact` and `c86_producer_exact` say exactly when code of the destroyed object runs.
C87: The operations on doubles are modelled on bit patterns, with exact natural-number arithmetic in units of 2^-1074 before rounding. Rounding to nearest is proved to give a nearest double and to be monotone; k/1000 is never in the middle of two doubles, so that the literal is unique. The round trip of the 1001 values of whole thousandths is computed by the kernel; monotonicity extends it to all doubles from 0 to 1. `c87_interest` feeds it into C52.
C88: False as stated (`c88_false`): a partial-sync Interest with the probability number 0 converts minus infinity to an unsigned number in IEEE arithmetic (`c88_false_probability`, every state, every count that is not a multiple of 2^32), some IBF makes the subtraction of any full-sync node overflow (`c88_false_overflow`), and some other keeps its peeling loop running for ever (`c88_false_endless`). `c88_producer_exact` and `c88_full_exact` say for every state and Interest exactly when the handler fails: reading the name, the numbers and the IBF, the two name lookups, and publishing never do, so all that is left is building the filter (C17), comparing the IBFs (C08) and asking the filter (C34). Partial: IBFs that hold sets and filters with a size of 1 to 2^32-8 bits.
C89: False as stated (`c89_false`): an Interest that waits to be tried again and is received once more when it carries our own IBF is parked without ending the wait; the Data that answers it stays in memory for syncReplyFreshness, and every retry of the waiting copy (one per timer, and one per sync Data with news) puts it again. Four Data for two Interests in the witness. `c89_partial_producer`: true for partial sync, with the potential Data + parked. `c89_full_partial`: true for full sync as long as no name is in both lists, with the potential Data + parked + waiting and the invariant that the store answers no waiting Interest; `c89_distinct_partial`: in particular if no two Interests have the same name. `c89_each`: handling one received Interest never puts two Data.
C90: False as stated (`c90_false`): a PartialProducer appends its IBF to the name of the sync Interest (prefix, filter and another IBF) and then cuts the content into segments of half a packet whatever the length of that name; in the witness an Interest of 4194 bytes is answered with a Data of 8828 bytes. `Spec/PacketSize.lean` gives the wire forms of the NDN packet format. `c90_full`: true for the FullProducer, for every run (invariant: every stored, parked or waiting name is the prefix, a component of exactly the IBF's size and a number); `c90_full_interest`: the size of its own Interests depends on the options only, up to 14 bytes. `c90_producer_partial`: true for the PartialProducer if the sync Interest names it receives, the IBF and the signature have together at most 4337 bytes. `c90_oversized`: whatever it sends afresh for a sync Interest is at least as long as the Interest's fields, another IBF, the signature and the content together. This is also the condition under which the model's face, which accepts Data of any size, is faithful.
C91: `Model/Salts.lean` adds the loop that draws random numbers (with fuel, since nothing bounds it) to the model. `c91_mixed`: the mixing loop, for every list of salts, by induction over its rounds. `c91_good`: the salts are as many as asked for, different and not zero; up to 128 the numbers are fixed, and the check is a kernel evaluation over all 129 cases, made short by the fact that all but the last three salts do not depend on their number; beyond 128 by an invariant of the loop, whatever `rand()` returns. `c91_model`: the model of the filter used elsewhere (`genSalts`), which takes the accepted random numbers as given, has the same salts, with one stream for all filters.
C92: `Spec/ConsumerCause.lean` counts the reasons in every event, from the state before it. `c92_reasons`: Interests in the log plus scheduled retries are at most the reasons, for every run; the potential changes by at most the reasons of the event in every step (timers move one from scheduled to sent). `c92_exact`: equality if `stop` is never called and the update callback makes no calls (which the consumer only invokes if there is news). `c92_kinds`: every Interest in the log is a hello or a sync Interest, and not both. Every segment of a nack that has several is a reason for one more hello Interest (see C51).
C93: `Spec/RetryFate.lean` states the possible outcomes of one more look at a delayed Interest over the packets, the two lists and the numbers of the node. `c93_timer`, `c93_news`: a run of the timer, and a reply with news, are a sequence of such looks, one for every delayed Interest in the order of the names, for every reachable state. `c93_listed`: the names of delayed Interests have an IBF and a number (the outcome is stated for those whose last component is not marked as a segment number). This is C78 for Interests that wait; in contrast to C31, which bounds the number of looks from above, it also says that the second one takes place.
C94: `Model/Compression.lean` has the two switches of util.cpp, the enumeration with its default, and which member gets which option; the algorithms are parameters (`Build`), assumed lossless (`Spec.SoundBuild`). `c94_dispatch`: the switches, all schemes and builds. `c94_default`, `c94_wf`: the default is available, and available schemes give the lossless codecs that all other properties assume (`Cfg.WF`). False as stated in two respects. `c94_false`: a FullProducer whose content scheme is missing is constructed, because only the IBF is compressed in the constructor; `c94_construct_partial`: it is refused exactly if the IBF scheme is missing; `c94_content`: with the content scheme missing, in every reachable state everything sent is an Interest or a nack and no update was reported (the exception leaves publishName or the handler of an Interest); `c94_part`: a PartialProducer with the IBF scheme missing never sends anything, and throws on every hello Interest. `c94_default_false`: DEFAULT depends on the build, so that nodes with default options of a build with zlib and one without do not understand each other; `c94_default_partial`: nodes of builds with the same zlib do, in every reachable state.
C95: `Model/Compression.lean` has both kinds of constructors. False as stated in two respects. `c95_false`: ibfCount = 0 is accepted; `c95_zero_full`, `c95_zero_part`: in every reachable state of such a producer the numbers are all 0 and publishing any other one divides by zero. `c95_full_partial`, `c95_part_partial`: with ibfCount > 0 the first publication works (the later ones: C19, C60). `c95_old_false`: the deprecated constructors take a size_t and cut it to 32 bits; `c95_old_publish`: what they make can publish exactly if the count is not a multiple of 2^32; `c95_old_full_partial`, `c95_old_part_partial`: with a count below 2^32 they do what the other constructors do, plus the registration of the prefix, with enough room. `c95_default`: the default options give 120 and 60 cells.
C96: False as stated (`c96_false`): the probability is transmitted in whole thousandths, so every probability below 0.001 becomes 0. `c96_false_interest`: for every consumer with such a probability, each sync Interest it ever sends makes every reachable PartialProducer that receives it convert minus infinity to an integer (`Proofs/ConsumerName.lean`: form of every Interest in the log of a consumer; `stored_name`: the producer cannot have an answer to it in its store). The consumer itself need not fail: the witness uses a logarithm with the values that the C standard fixes and -1 between 0 and 1. `c96_rejects`: exactly the options that the constructor of the consumer refuses. `c96_served_partial`: probabilities that are literals k/1000 and filters of at least 8 bits; C61 has whole runs for those.
C97: False as stated (`c97_false`). `c97_exact` decides every case, for every `std::log` and `std::pow`: with x the smallest of the 999 computed sizes, the constructor throws (count 0, probability negative or infinite), converts an x that does not fit into 32 bits (undefined), returns a consumer without a table, whose first addSubscription writes out of bounds, or returns a consumer that can subscribe whatever happens later (x from 1 to 2^32 - 8). `c97_false_tiny` (probabilities up to 2^-54, where 1 - p is 1), `c97_false_large` (1 and above), `c97_false_nan`, `c97_false_coarse`: families that do not work. `Proofs/Accurate.lean` bounds the error of the whole computation in real numbers (`size_accurate`: relative error below 10^-4 if `log` and `pow` err by at most 2^-40, which is a hypothesis about the C library): so for p from 2^-30 to 1 - 2^-10 `c97_accurate_partial` tells the cases by the sizes -k·n/ln(1 - p^(1/k)) in real numbers, `c97_range_partial` gives a simple range that works (p up to 1/2, n up to 4·10^9·p), `c97_default` the default options, `c97_false_many` n·ln(1/p) of 4.3·10^9 or more, `c97_false_single` one subscription with p from 0.7. `true_accurate` and `true_annexF` construct such functions. Not covered by the partial theorems: probabilities between 2^-54 and 2^-30 and above 1 - 2^-10 (there only `c97_exact`).
C98: False as stated (`c98_false`): a hash collision in the history of one producer (C21, C22) leaves a different IBF and so a different hello reply. `c98_interest_partial`: without collisions the sorted tables, the IBFs (C22) and the lookups by hash agree, and the handlers use nothing else. `c98_publish_partial`: the relation `Served` of C42 is deterministic up to versions (`served_same`), because the cut of a buffer into segments is unique (`cut_unique`).
C99: Proved. Potential in `Proofs/AskRate.lean`: Interests sent + Interests parked + delayed Interests not dealt with (`askDue`); it rises by at most one with a received Interest and with a firing of the renewal timer, and not otherwise (`step_askDue`), because each other way to send an Interest uses up a parked or delayed one. `step_rearmed`: whatever happens, the timer is left alone or armed at least 100 ms ahead (at least lifetime/2 + 100 ms if no fetch ends), which bounds the firings by the clock. The examples meet both bounds exactly.
C100: False as stated (`c100_false`): the hello Interest of a consumer whose sync prefix is that of the node plus one component ends in the handler with an exception that nothing catches, in every reachable state (`c100_hello_one`), because "hello" is read as a number outside the try block. Full-sync groups two components longer and hello Interests three components longer get an application nack that does not match the Interest (`c100_full_two`, `c100_hello_three`). Everything else is ignored (`c100_full_partial`, `c100_consumer_partial`): what is in the store has the name P/IBF/number/version/segment (`packet_names`), and no such Interest is a beginning of it; one hypothesis is left for the hello Interest with the same sync prefix: "hello" itself does not decompress to an IBF.
C101: False as stated (`c101_false`): with a user prefix of the form "//host" the URI parser takes everything for an authority and all streams have the empty name. `stream_names` follows the text of a stream through the parser (scheme, authority, split at slashes, escape sequences): what is appended has no colon, slash, percent or equal sign, so only the last component depends on it. `c101_names_partial` and `c101_distinct_partial`: different names in all other cases; missing are user prefixes with an equal sign (typed components). `c101_accepted`, `c101_too_large`, `c101_usage`, `c101_consumer`: the numbers. `c101_published_partial` joins it to C65: from the command line to what is published.
C102: Proved. `Spec.ShowsRows` says what a text shows without reference to the printing code; `c102_unique`: at most one list of rows (split at blanks and newlines, decimal numbers have one value). `c102_shows` and `c102_set`: the closed form of the table of C01 gives the three numbers of every line. `c102_same`: any two tables. `c102_bloom`, `c102_bloom_unique`, `c102_bloom_same`: the same for Bloom filters, two hexadecimal digits per byte. `c102_state`: for every way to print names that is injective, without commas and never empty (ndn-cxx escapes commas).
C103: Proved. Model/Register.lean puts the forwarder's answer around the two producers: a PartialProducer sets its Interest filters in the callback for success, a FullProducer at once. `c103_same` is a simulation (`Spec.Heard` says which events count), `c103_reach` and `c103_all` carry every theorem about `Part.Reach` over in both directions. `c103_silent`: invariant of the waiting states. `c103_hello` uses C44 and the empty store. `c103_full`: simulation in both directions. `c103_refused`: both callbacks throw.
C104: Proved. Both nodes are in any reachable state, with any options but the same prefix and lossless compression. The Interest carries the IBF of an earlier state of the sender (`asked_ibf`); its length differs, so C02 refuses it (`size_matters`). It is not answered from the store either: the names of all stored packets contain an IBF that was read (`packet_names` of C100, `Part.packets_named`). `c104_producer` is for outcomes that are defined, see C96 for the others. `c104_full_same`, `c104_producer_same`: round trip of C02.
C105: False as stated (`c105_false`): a hello reply within the limit whose IBF has 8650 bytes makes a consumer with a filter of 108 bytes send an Interest above it; the face throws out of the callback. `c105_name_partial`, `c105_partial`: bounds in terms of the largest name component received; the invariant is that the IBF and the two Data names consist of received components. An honest producer's IBF takes 12 bytes per entry and at most 4 more, and `c105_name_partial` gives the bound that `c90_producer_partial` asks for.
C106: Proved, for `ibfCount` and limit above 0. `Within` (keys of a table are in a list) is kept by every event that tells of no other prefix; a sorted table has no key twice, so its length is bounded. `Base.Inv.biMap_le`: the names in the table of hashes are different latest publications, collisions or not. Store: every small step keeps the limit (`Micros.store_le`). IBF: `Steps.ranged`. Filter: `Bloom.runBf_length`. How long parked and delayed Interests and erasure timers are kept is in C30, C31, C43, C72 and C74.
C107: Proved. The filter is determined by the subscriptions (C15; a filter without bytes never changes, `runBf_empty`), the tables by the numbers (`NMap.ext`), so two consumers that are alike are equal but for clock, timers, random numbers and log; `Twin` relates such states and every event keeps it. For the event that runs a timer the same kind has to be due in both, since the deadlines differ.
C108: False: a member that has 7 for a prefix ignores the 1 of the restarted producer (`c108_false`). Proved: exactly which numbers a reply makes a full-sync member or a consumer report, namely those above its own number up to the largest one in the reply (from the tiling of C27 and C46 and the maximum of C26 and C46); so a number above the old one is reported (`c108_heard_partial`); and a full-sync member that has processed a reply with number x of a prefix publishes numbers above x for it afterwards (`c108_resumes_partial`), so it only has to listen before it publishes. A PartialProducer never listens: its application has to pass the number on.
C109: Proved for partial sync (every event, `Part.step_registers`). False for full sync: a reply of a member that still has the prefix registers it again and reports its publications from 1 on (`c109_false`, `c109_again`). Partial: this and addUserNode are the only ways (`c109_full_partial`, with the tables of C106); without them nothing of the prefix is reported, by the tiling of C27 from 0 to 0.
C110: Proved for partial sync: Interests and timers do not change the numbers, so publishName gives what it would have given before. False for full sync: segments are accepted without validation, and a reply with 2^64-1 for a prefix takes its last number (`c110_false`); from then on the number never changes and neither members nor consumers that got it report anything of the prefix (`c110_stuck_full`, `c110_stuck_consumer`: monotone by C18 and C46, below 2^64 by the invariants, tiling). Partial: without a reply with that number publishName adds one to the largest number received (`Full.run_best`).
C111: Props/Overlooked.lean. `c111_found_partial` reduces to C52 by showing that equal byte sizes and equal numbers of hash functions mean equal parameters. `c111_never` follows from the history of everything a producer sends (C39). The witness of `c111_false` gives the search for the parameters by a table of the two values that matter; they are those of real arithmetic (13.04 bits and 9 hashes for 0.0019, 14.38 bits and 10 hashes for 0.001).
C112: Props/Accumulate.lean, from C43 (when a parked Interest was received) and the fact that the keys of the table are different. `c112_grows` is proved by induction over the list of tables: each round (Interest, 10 ms, timer) leaves one more entry without a timer.
C113: Props/Bounded.lean. A reverse induction over the run shows that an Interest that waits was received and has been waiting since (`wait_origin`); C73 bounds how long that can be, C30 tells where parked Interests come from. The number of keys follows because they are different.
C114: Props/Stuck.lean. `c114_nine_hours` is an induction over the number of retries: the state after each round (500 ms pass, the timer fires) differs from the one before only in the clock, the timer, the number of draws and the count of the Interest. The partial theorem follows C31/C73 with the weaker condition `Decided` instead of `AheadOf`.
C115: Props/Once.lean. The positive half of a difference is an ascending list for arbitrary tables (`diff_positive_nodup`), different hashes stand for different names, and current names of one prefix are equal. A traversal of all events (`step_once`) shows this for all recorded replies, and every Data sent is a packet of a recorded reply. The exception is exactly the number that publishName appends.
C116: Props/Order.lean. Each event changes the number of a subscribed prefix to the maximum of it and what the processed content announces (`Cons.step_best`, from the theorems of C46); the maximum depends on the set of announcements only. The numbers reported follow from the tiling of C46.
C117: Props/Twin.lean. Without collisions the prefix map, IBF and both lookups of the maps are functions of the sequence numbers (C22, `Full.sameBase_of`), and each branch of the handlers is compared. What the numbers do not determine is the count of own elements in the branch for undecodable IBFs: it includes what was removed (C23). False witness: of two nodes with the same nine publications, only the one that has removed a prefix answers an undecodable Interest with count 10. Proved: all Interests if the sums of the removed numbers agree, decodable Interests always, and publications.
C118: Props/Rest.lean. Everything a node can be told was published (C56), the publisher has had that number since (without removals), and so has every node from the moment of agreement; an update callback reports at least one number that the node did not have (`Micros.rest`). With removals it is false: a reply on its way brings back a prefix that has been removed everywhere (`c118_false`).
C119: Props/Heard.lean. The events at the consumer between the two moments form a run (`consumer_span`); the ranges reported in it follow each other from the earlier number to the later one and are not empty (C46), and the later one is not above the producer's (C75).
C120: Props/Snapshot.lean. `Cons.Gave` says what the two callbacks have been given; `Gave.step` follows it through every event; `PSRun.gave` uses C45's description of what a completed fetch delivers (`hello_delivered`, `sync_delivered`): the content made from one state of the producer's table.  The map of the hello callback is compared with that table in both directions (`told_hello`, `offered_all`).  The example reports two prefixes in one hello.
C121: Props/Mention.lean. What is merged at a FullProducer is a part, in order, of what the reply announces (`merge_sublist`), and each merged number of a prefix is above the one before (`MergeRel.rising`); so a prefix is merged twice only if the reply lists it again with a larger number (`Falling` excludes this).  The replies of a group do not, by C115, whose record of each reply says in addition from which table its names come, so that the receiver reads the same list (`GRun.falling`).  A Consumer: the number reported last is the one in the table (`Cons.Tidy`), and one content has one number per prefix.  A forged reply with /a/1 and /a/2 is reported twice (`c121_false`).
C122: Props/Own.lean. An update is given only when a fetch completes, and then it is what `merge` adds to the table of that moment (`step_news`); every merged range begins above the number in the table (`MergeRel.beyond`), which is not below what the node published and did not remove (`ownMadeOf`).  In a group, what is received has been published before the event (`GRun.received`), so by the node itself if nobody else publishes the prefix.  An example shows that a removed prefix is reported to its publisher when an old reply comes back.
C123: Props/Often.lean. Along the small steps of a node without removals the reported highest numbers of a prefix increase and stay at or below the table (`Micro.told`, with `MergeRel.rising` and `MergeRel.known`), and no call is empty.  So the reported pairs are all different, and by C122 each is a publication of another node (`c122_by_others`); the count follows.  The example reaches the bound; another one shows that after a removal a number is reported twice.
C124: Props/Seldom.lean. Invariant of a consumer together with the entries it has computed but not yet reported, since the hello callback comes in between and may subscribe (`Reports`): the numbers of a prefix increase and stay at or below the table (`Climbs`), and no call is empty.  So the reported pairs are all different, and by C75 each with a number other than 0 was made by a call of publishName or given to addSubscription; the count follows.  Number 0 is left out because publishName with number 0 on a new prefix answers a parked Interest with that number without publishing anything (C125); without such calls all entries are counted (`c124_all` in Props/Filled.lean).  Examples: a run with two publications, a subscription that reaches the bound, and one in which unsubscribing lets a number be reported twice.
C125: Props/Filled.lean. False in both settings: publishName with number 0 for a new prefix changes no table, but a parked Interest is answered with that number (full-producer.cpp:514-516, partial-producer.cpp:232-234); a node or a consumer that does not know the prefix then reports the range from 1 to 0 (`c125_group_false`, `c125_consumer_false`, concrete runs without forged data; the consumer has unsubscribed while its Interest was parked).  Proved for everything received: a range whose highest number is not 0 is not empty, at a node (`c125_node_partial`, from the relation of `merge`) and at a consumer (`c125_consumer_partial`, from the two loops); and in a group in which nobody gives 0 to publishName no range is empty (`c125_group_partial`, the numbers reported were published by C56's invariant).  The same holds for a consumer whose producer never gives 0 to publishName (`c125_pubsub_partial`: the replies to sync Interests then list positive numbers only, `Part.step_positive`).  Missing: nothing but the excluded publications of 0.
