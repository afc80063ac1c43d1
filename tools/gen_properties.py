#!/usr/bin/env python3
"""Regenerates /verif/properties.jsonl (one JSON object per line)."""
import json, os
P = []
def p(title, statement, quantifier, why, *anchors):
    P.append(dict(id="C%02d" % (len(P) + 1), title=title, statement=statement,
                  quantifier=quantifier, why_tests_cant=why, anchors=list(anchors)))
IB="PSync/detail/iblt.cpp"; UT="PSync/detail/util.cpp"; ST="PSync/detail/state.cpp"; BF="PSync/detail/bloom-filter.cpp"
PB="PSync/producer-base.cpp"; FP="PSync/full-producer.cpp"; PP="PSync/partial-producer.cpp"; CO="PSync/consumer.cpp"; SP="PSync/segment-publisher.cpp"

p("IBF content depends only on the net set of keys",
  "If two IBFs of the same capacity receive insert/erase calls whose net effect per key is the same, in any order and interleaving, they compare equal and append the identical name component; in particular erase(k) after insert(k) restores the previous IBF.",
  "all capacities, all key values, all finite insert/erase sequences that keep every cell counter in int32 range",
  "the number of operation orders and key sets is unbounded; tests try two or three keys",
  IB+"::ibltUpdate", IB+"::IBLT::insert", IB+"::IBLT::erase", "PSync/detail/iblt.hpp::operator==")
p("IBF wire round trip",
  "initialize() on the component produced by appendToName() of an IBF with the same capacity and compression scheme yields an equal IBF; a component whose decompressed length is not 12 bytes per cell is rejected with an exception and no other input is rejected.",
  "all capacities, all cell contents (any int32 count, any uint32 sums), all lossless compression schemes, all received components",
  "all 2^96 values of a cell and all capacities",
  IB+"::IBLT::appendToName", IB+"::IBLT::initialize", UT+"::compress", UT+"::decompress")
p("IBF difference is exact when it decodes",
  "If two IBFs hold key sets L and R and lhs - rhs reports canDecode, then positive = L \\ R and negative = R \\ L.",
  "all finite key sets L and R, all capacities, all cell layouts",
  "depends on every combination of colliding keys; false for key sets on which the 32-bit cell checksum collides, which no test exhibits",
  IB+"::operator-", IB+"::HashTableEntry::isPure")
p("A difference of one key always decodes",
  "If two IBFs differ by exactly one key, lhs - rhs succeeds and reports exactly that key on the right side, no matter how many keys the two IBFs share (far beyond the expected count).",
  "all shared key sets of any size, all keys, all capacities >= 1",
  "quantifies over the shared load and over every key and its hash placement",
  IB+"::operator-")
p("When an IBF difference decodes",
  "lhs - rhs reports canDecode exactly when the symmetric difference of the key sets contains no non-empty subset in which every cell touched is touched by at least two keys of the subset (no stopping set); otherwise it reports failure and every key it did report is a true difference on the correct side.",
  "all key sets whose cell checksums do not collide, all capacities",
  "an iff over all hash placements",
  IB+"::operator-")
p("IBF difference is antisymmetric",
  "rhs - lhs gives the same canDecode as lhs - rhs with positive and negative swapped.",
  "all pairs of IBFs of equal size, including IBFs received from the network with arbitrary cell contents",
  "ranges over arbitrary table contents and over the in-place scan order of the peeling loop",
  IB+"::operator-")
p("Processing a received IBF always terminates",
  "For every IBF received in a sync Interest, computing the difference finishes.",
  "all received IBFs of the right size (honest or crafted), all own IBFs",
  "non-termination cannot be observed by a finite test run, and the bad inputs are crafted cells",
  IB+"::operator-")
p("Processing a received IBF never overflows a signed counter",
  "For every IBF received in a sync Interest, computing the difference performs no signed integer overflow (undefined behaviour).",
  "all received IBFs of the right size, all own IBFs",
  "undefined behaviour is input dependent and not reliably observable",
  IB+"::operator-", IB+"::ibltUpdate")
p("Empty difference means equal IBFs",
  "lhs - rhs reports canDecode with both sets empty if and only if lhs == rhs; so an Interest is parked as 'nothing new' only if its IBF is identical to ours.",
  "all pairs of IBFs of equal size with in-range counters, arbitrary cell contents",
  "needs every table pair",
  IB+"::operator-", FP+"::onSyncInterest")
p("The key hash is injective on 32-bit keys",
  "For a fixed seed two different 32-bit keys never get the same hash, so the check value of a single-key cell identifies the key; the hash of a Name depends only on its wire bytes.",
  "all seeds, all pairs of 32-bit keys",
  "2^96 combinations",
  UT+"::murmurHash3", "PSync/detail/util.hpp::murmurHash3")
p("Sync/hello content round trip",
  "Decoding the wire encoding of a State yields exactly the list of names that were added, in order, including after further names are added to an already encoded State.",
  "all lists of names, all name lengths and component bytes, all interleavings of addContent and wireEncode",
  "unbounded lists and byte strings, multi-byte TLV lengths",
  ST+"::State::wireEncode", ST+"::State::wireDecode", ST+"::State::addContent")
p("Sync/hello content decoding rejects everything else",
  "wireDecode accepts a block only if its type is PSyncContent and its value is a sequence of well-formed Name elements; anything else raises an exception and no name is invented.",
  "all byte strings",
  "all inputs",
  ST+"::State::wireDecode")
p("Sequence number components",
  "Appending a sequence number to a prefix and reading it back with toNumber gives the same number for every uint64; two different (prefix, seq) pairs never give the same name.",
  "all prefixes, all uint64 sequence numbers",
  "2^64 numbers and unbounded prefixes",
  PB+"::updateSeqNo", FP+"::onSyncData", CO+"::onSyncData")
p("Bloom filter has no false negatives",
  "After insert(p), contains(p) is true until clear() is called, whatever else is inserted before or after.",
  "all filters with a non-empty table, all names, all insertion sequences",
  "unbounded sequences of insertions",
  BF+"::BloomFilter::insert", BF+"::BloomFilter::contains")
p("Bloom filter content depends only on the inserted set",
  "Two filters with the same parameters into which the same set of names was inserted, in any order and with repetitions, compare equal; clear() makes a filter equal to a new one.",
  "all insertion sequences",
  "unbounded sequences",
  BF+"::BloomFilter::insert", BF+"::BloomFilter::clear")
p("Bloom filter survives the wire",
  "The filter a producer rebuilds from the three components appended by the consumer answers contains() identically for every name, and a component of another size is rejected, whenever the transmitted probability stands for the same parameters.",
  "all filters, all names, all received components",
  "unbounded names; depends on truncation of the probability to thousandths",
  BF+"::BloomFilter::appendToName", BF+"::BloomFilter::BloomFilter")
p("Bloom filter access is memory safe for every received parameter set",
  "Whatever element count, probability and table a peer puts in a sync Interest, the producer never reads outside the bit table.",
  "all received counts, probabilities and tables",
  "out-of-bounds reads happen only for crafted parameters",
  BF+"::compute_optimal_parameters", BF+"::BloomFilter::contains", PP+"::onSyncInterest")
p("Sequence numbers never go backwards",
  "Between two points of any history in which a prefix is not removed, getSeqNo(prefix) does not decrease and the prefix does not disappear.",
  "all histories of API calls, received Interests, received Data and timers",
  "unbounded histories",
  PB+"::updateSeqNo", FP+"::onSyncData", FP+"::publishName", PP+"::publishName")
p("publishName effect",
  "publishName(p) on a registered prefix sets getSeqNo(p) to old+1, publishName(p, s) sets it to max(old, s); an unregistered prefix is ignored; no other prefix changes.",
  "all states, prefixes and sequence numbers (wrap-around at 2^64 stated explicitly)",
  "all states and uint64 values",
  FP+"::publishName", PP+"::publishName", PB+"::updateSeqNo")
p("addUserNode / removeUserNode effect",
  "addUserNode returns true exactly if the prefix was unknown and then makes it known with sequence number 0; removeUserNode makes it unknown; other prefixes are unaffected and both are idempotent.",
  "all states and prefixes",
  "all histories leading to the state",
  PB+"::addUserNode", PB+"::removeUserNode")
p("The IBF holds exactly the latest publications",
  "At all times the producer's IBF equals a fresh IBF into which hash(prefix/seq) was inserted once for each known prefix with non-zero sequence number.",
  "all histories of publish, receive, add and remove",
  "the failure needs two live names with the same 32-bit hash; tests never produce one",
  PB+"::updateSeqNo", PB+"::removeUserNode")
p("Same data set, same IBF",
  "Two producers with the same capacity and the same prefix->seq state (zero entries ignored) have equal IBFs, hence exchange no data, whatever histories led there.",
  "all pairs of histories",
  "unbounded histories",
  PB+"::updateSeqNo", FP+"::sendSyncInterest")
p("Cumulative element count",
  "The number carried after the IBF in a full-sync Interest equals, modulo 2^64, the sum of all current sequence numbers plus the sequence numbers held by prefixes at the time they were removed.",
  "all histories",
  "unbounded histories and wrap-around",
  PB+"::updateSeqNo", FP+"::sendSyncInterest")
p("Full-sync reply soundness",
  "Every name in a reply to a sync Interest is prefix/seq with seq equal to the producer's current non-zero sequence number of that prefix, for every received Interest, honest or crafted.",
  "all reachable states, all received Interests",
  "all histories and adversarial inputs",
  FP+"::onSyncInterest")
p("Full-sync reply completeness",
  "When a node answers an honest sync Interest, a requester that processes the reply ends with every sequence number at least as high as the responder's, for every prefix.",
  "all pairs of reachable node states without hash collisions",
  "all pairs of states",
  FP+"::onSyncInterest", FP+"::onSyncData", FP+"::isFutureHash")
p("Receiving sync Data merges by maximum",
  "After sync Data is processed, getSeqNo of each prefix is the maximum of its old value and the values in the Data; prefixes not in the Data are unchanged.",
  "all states and all well-formed Data contents, including repeated prefixes",
  "all states and contents",
  FP+"::onSyncData")
p("Each remote sequence number is notified exactly once",
  "Over any history, the ranges [lowSeq, highSeq] passed to the update callback for a prefix, together with local publications, tile 1..getSeqNo(prefix) without gap or overlap.",
  "all histories without removal of the prefix",
  "unbounded histories",
  FP+"::onSyncData")
p("Delivery order and duplication do not matter",
  "Processing the same collection of sync Data in any order, with any repetition, ends in the same prefix->seq map and equal IBFs.",
  "all collections and orders of Data",
  "factorially many orders",
  FP+"::onSyncData", PB+"::updateSeqNo")
p("publishName answers every parked Interest once",
  "publishName on a registered full-sync prefix sends for every parked Interest one Data that contains the published name, and no parked Interest remains.",
  "all states, any number of parked Interests",
  "any number of parked Interests and any IBF difference",
  FP+"::satisfyPendingInterests", FP+"::publishName")
p("Parked full-sync Interests expire",
  "A parked sync Interest is dropped at most one Interest lifetime after it was last received, a repeated Interest renews it, and it is never answered after that.",
  "all schedules",
  "all interleavings of timers, publications and Interests",
  FP+"::onSyncInterest", FP+"::deletePendingInterests")
p("The retry list is bounded in time",
  "A delayed Interest that stays ahead of us is retried at most twice before it is dropped, and no Interest is ever retried more than 65535 times.",
  "all histories",
  "65535 retries and all interleavings",
  FP+"::processWaitingInterests", FP+"::onSyncInterest")
p("A full-sync node never goes silent",
  "At every moment a live full-sync node has a sync Interest transmission scheduled, due within the larger of lifetime/2 and data freshness plus the maximum jitter.",
  "all schedules of timers, jitter values, Data, errors and API calls",
  "liveness over all schedules",
  FP+"::sendSyncInterest", FP+"::onSyncData")
p("Decode failure cannot deadlock two nodes",
  "If the IBFs of two nodes cannot be decoded against each other, at least one of the two, on receiving the other's sync Interest, answers at once: with a stored reply to that Interest or with its complete state.",
  "all pairs of reachable states without removals whose sequence numbers sum to less than 2^64",
  "all pairs of states whose difference is undecodable",
  FP+"::onSyncInterest")
p("Malformed Interests are harmless",
  "No received Interest makes a producer raise an exception out of its Interest handler.",
  "all Interest names under the sync prefix",
  "all byte strings in every component",
  FP+"::onSyncInterest", PP+"::onSyncInterest", PP+"::onHelloInterest")
p("Malformed Data is harmless",
  "No received sync or hello Data content makes the receiver raise an exception out of its Data handler or access memory out of bounds.",
  "all Data contents",
  "all byte strings",
  FP+"::onSyncData", CO+"::onSyncData", CO+"::onHelloData")
p("An application nack satisfies the Interest it answers",
  "The nack Data sent in response to an Interest has a name that the Interest name is a prefix of.",
  "all states and Interests",
  "all Interests in all states",
  PB+"::sendApplicationNack", FP+"::onSyncInterest", PP+"::onSyncInterest")
p("Announcements are never stale",
  "A Data packet sent in response to publishName never carries a sequence number below the producer's current one, and never a zero one.",
  "all states and publishName arguments",
  "all publishName arguments in all states",
  FP+"::publishName", FP+"::satisfyPendingInterests", PP+"::satisfyPendingSyncInterests")
p("A sync Interest attempt leaves an Interest outstanding",
  "After a full-sync node tries to send a sync Interest outside the no-new-data wait, an Interest carrying its current IBF is outstanding.",
  "all states and times",
  "depends on sub-100ms schedules",
  FP+"::sendSyncInterest")
p("Partial-sync reply soundness",
  "Every name in a partial-sync reply is prefix/seq with the producer's current sequence number, and its prefix passes the requester's Bloom filter.",
  "all reachable states and received Interests, honest or crafted",
  "all histories and inputs",
  PP+"::onSyncInterest", PP+"::satisfyPendingSyncInterests")
p("Partial-sync reply completeness",
  "When a producer compares an honest sync Interest (one it does not answer from the segment store) and the difference decodes, the reply names exactly the subscribed prefixes whose current publication is not in the requester's IBF; it is sent at once if there are any or the difference has reached half of ibfCount, and otherwise the Interest is parked and nothing is sent.",
  "all reachable states and all honest Interests without hash collisions",
  "all states",
  PP+"::onSyncInterest")
p("Partial-sync nack condition",
  "A producer sends an application nack to a well-formed sync Interest exactly if the IBF difference does not decode; the nack carries the current IBF and leaves the producer unchanged.",
  "all states and Interests",
  "all states and Interests",
  PP+"::onSyncInterest", PB+"::sendApplicationNack")
p("Partial-sync publication wakes subscribers",
  "publishName answers every parked Interest whose filter contains the prefix with its current sequence number and the new IBF, answers with empty content if the difference reached the threshold, drops those whose IBF difference does not decode, and leaves all others parked.",
  "all states and any number of parked Interests",
  "all states",
  PP+"::satisfyPendingSyncInterests")
p("Parked partial-sync Interests expire",
  "A parked partial-sync Interest is dropped at most one Interest lifetime after it was last received.",
  "all schedules and Interest formats",
  "all schedules and all accepted Interest formats",
  PP+"::onSyncInterest")
p("Hello reply lists everything",
  "A hello Interest not answered from memory is answered with exactly the list of all registered prefixes with their current sequence numbers and the current IBF in the name.",
  "all states and hello Interests",
  "all states",
  PP+"::onHelloInterest")
p("A subscriber never misses an update",
  "In any run of a producer and a consumer, with Interests and Data lost, delayed, duplicated or answered from caches, whenever the consumer has processed a reply carrying an IBF of the producer, its sequence number for each subscribed prefix is at least the producer's at the moment that IBF was current.",
  "all interleavings of publications, replies, losses and duplications",
  "unbounded interleavings",
  PP+"::onSyncInterest", PP+"::satisfyPendingSyncInterests", CO+"::onSyncData", CO+"::onHelloData")
p("Consumer notifications are monotone and gap free",
  "The ranges passed to the update callback for a prefix start right after the consumer's previous sequence number for it and end at the new one; the consumer's sequence number of a subscribed prefix never decreases.",
  "all histories of hello and sync Data",
  "unbounded histories",
  CO+"::onSyncData", CO+"::onHelloData")
p("Subscription API",
  "addSubscription(p) succeeds exactly if p is not subscribed, removeSubscription(p) succeeds exactly if p is subscribed, and isSubscribed reflects the last successful call.",
  "all histories of API calls and received Data",
  "depends on Data arriving between calls",
  CO+"::addSubscription", CO+"::removeSubscription", "PSync/consumer.hpp::isSubscribed")
p("Only subscribed prefixes are notified",
  "The update callback is only called for prefixes that are subscribed at that moment.",
  "all histories",
  "Bloom false positives and late Data",
  CO+"::onSyncData", CO+"::onHelloData")
p("The transmitted filter is the subscription list",
  "The Bloom filter put in a sync Interest equals a fresh filter containing exactly the current subscription list, after any history of subscribing and unsubscribing.",
  "all histories",
  "unbounded histories",
  CO+"::addSubscription", CO+"::removeSubscription", CO+"::sendSyncInterest")
p("stop() stops the consumer",
  "After stop() returns to the application's event loop no Interest is sent and no callback is invoked until the application calls the consumer again.",
  "all states, timers and in-flight Data, including stop() called from a callback",
  "all schedules",
  CO+"::stop", CO+"::onSyncData")
p("Application nack makes the consumer say hello",
  "On a sync nack the consumer sends a hello Interest, does not change its sequence numbers or subscriptions, and does not misread later sync Data as a nack.",
  "all states and Data sequences",
  "all Data sequences",
  CO+"::sendSyncInterest")
p("Producer and consumer agree on the sync Interest format",
  "A sync Interest built by a consumer from an IBF it got from a producer of the same capacity is accepted by that producer and decoded to the same filter and IBF.",
  "all subscription lists, all IBFs",
  "all contents",
  CO+"::sendSyncInterest", PP+"::onSyncInterest")
p("Segmentation is lossless",
  "The segments published for a buffer concatenate to it, have at most half the maximum packet size of content, are numbered 0..n-1, and there is at least one.",
  "all buffers",
  "all sizes",
  SP+"::publish")
p("Only requested segments are put on the face",
  "publish() sends at most one Data: the segment the Interest asked for (segment 0 if none), or nothing if it does not exist.",
  "all Interest names and buffers",
  "all sizes and numbers",
  SP+"::publish")
p("The segment store is sound and bounded",
  "replyFromStore sends only Data that was published, whose name extends the Interest name, and that has not expired or been evicted; the store never exceeds its limit and keeps the most recent packets.",
  "all histories of publish, expiry and lookup",
  "unbounded histories",
  SP+"::replyFromStore", SP+"::publish")
p("A sync group never invents data",
  "In a group of any number of honest full-sync nodes over a network that loses, duplicates, delays and reorders, no node ever holds or reports a sequence number of a prefix larger than the largest one published for that prefix by some node.",
  "all group sizes and all schedules",
  "unbounded schedules",
  FP+"::onSyncInterest", FP+"::onSyncData", FP+"::publishName")
p("A sync group converges",
  "If publications stop and every ordered pair of nodes along a spanning set completes an exchange, all nodes hold the same prefix->seq map: the pointwise maximum.",
  "all group sizes, initial states and exchange orders",
  "unbounded group sizes",
  FP+"::onSyncInterest", FP+"::onSyncData")
p("A parked Interest is owed nothing",
  "While a sync Interest is parked at a producer, the producer has no current publication (of a prefix that passes the Interest's filter, in partial sync) that is missing from the Interest's IBF.",
  "all histories of calls, Interests, Data and timers",
  "the order of publications, arriving Data and Interests is unbounded; a test sees one order",
  FP+"::onSyncInterest", FP+"::onSyncData", FP+"::satisfyPendingInterests", PP+"::onSyncInterest", PP+"::satisfyPendingSyncInterests")
p("A consumer never goes silent",
  "Once a consumer has sent a hello Interest, and as long as the application calls sendSyncInterest in every hello callback and never calls stop, at any moment an Interest is outstanding or a timer runs that will send one, whatever Data, nacks, timeouts and errors occur; a due timer does send one.",
  "all histories of calls, packets, failures and timers",
  "a consumer that forgets to send again after one particular order of nack, error and timeout is silent for ever; tests try few orders",
  CO+"::sendHelloInterest", CO+"::sendSyncInterest", CO+"::onHelloData", CO+"::onSyncData")
p("Honest traffic never makes a node fail",
  "In a group of full-sync nodes with the same parameters, as long as the Interests a node receives are sync Interests or segment Interests of nodes of the group, fetches complete with packets that nodes of the group have sent, and no two of the published names collide in their 32-bit hashes, no event makes a node throw, access memory out of bounds, fail an assertion or loop for ever.",
  "all groups, all histories of calls (also from the update callback, with removals), Interests, Data, timers, losses, delays, repetitions and reorderings",
  "the state of every node and every order of deliveries would have to be tried",
  FP+"::onSyncInterest", FP+"::onSyncData", FP+"::satisfyPendingInterests", FP+"::processWaitingInterests")
p("Honest traffic never makes a partial-sync producer or its consumers fail",
  "A partial-sync producer and any number of consumers with matching parameters: as long as the Interests the producer receives are those of consumers (or ask for another segment of a reply), fetches of consumers complete with packets the producer has sent, no two of the published names collide in their 32-bit hashes, and no application calls sendSyncInterest before its first hello callback, no event makes the producer or a consumer throw, access memory out of bounds, fail an assertion or loop for ever.  Calling sendSyncInterest before the first hello callback always fails the assertion.",
  "all numbers of consumers, all histories of calls (also from callbacks), Interests, Data, nacks, timers, losses, delays, repetitions and reorderings",
  "the states of all parties and every order of deliveries would have to be tried",
  PP+"::onHelloInterest", PP+"::onSyncInterest", PP+"::satisfyPendingSyncInterests", CO+"::onHelloData", CO+"::onSyncData", CO+"::sendSyncInterest")
p("The example consumer subscribes as it was asked",
  "After a hello reply the example consumer application is subscribed to as many of the listed prefixes as it was asked to subscribe to, each subscription starting from the number listed, and to nothing else.",
  "all hello contents, numbers of subscriptions and shuffles, all histories",
  "a second hello, or one that lists fewer prefixes than asked for, is not tried",
  "examples/consumer.cpp::afterReceiveHelloData")
p("The example consumer prints every number once and in order",
  "The numbers the example consumer has printed for a prefix are consecutive and increasing, each printed once, and end with the number the consumer holds for the prefix; for a prefix it holds no number for it has printed none.",
  "all histories of Data, nacks, errors and timers",
  "gaps and repetitions depend on the whole history",
  "examples/consumer.cpp::processSyncUpdate")
p("The update callbacks of the examples return",
  "Whatever updates are reported, the callbacks of the example applications print the reported range and return.",
  "all reported ranges",
  "2^64 numbers",
  "examples/consumer.cpp::processSyncUpdate", "examples/full-sync.cpp::processSyncUpdate")
p("The example producers publish each stream as often as asked",
  "When no update of a stream is scheduled any more, the numbers the example producer has published for it are 1, 2, ..., max-num-publish; until then exactly one update is scheduled; a scheduled update does not throw when it reads back the number.",
  "all numbers of streams and publications, all delays, all interleavings with network events",
  "the interleavings of timers and packets are unbounded",
  "examples/producer.cpp::doUpdate", "examples/full-sync.cpp::doUpdate")
p("Rounds of sync Interests bring all nodes up to date even if differences do not decode",
  "If nobody publishes any more, and then there are more rounds in which every node sends a sync Interest that every other node receives and whose answer, if any, arrives, than there are publications some node has not heard of, then all nodes hold for every prefix the largest number any of them held - whether or not the differences between their tables can be decoded.",
  "all groups, tables, sizes of the table, histories before the last publication, orders of the exchanges within a round",
  "that two nodes whose difference does not decode do not both decide to stay silent for ever depends on both tables at once; tests use tables that decode",
  FP+"::onSyncInterest", FP+"::onSyncData", FP+"::sendSyncInterest", PB+"::updateSeqNo")
p("After a reply without news a full-sync node waits until the reply is stale",
  "When a fetch completes with a reply that can be decoded and the application is not notified of any update, then as long as the application publishes nothing the node sends no sync Interest for at least syncReplyFreshness + 100 ms, and it has sent one when more than syncReplyFreshness + 500 ms have passed.",
  "all reachable states, replies, and later histories of calls other than publications, Interests, Data, nacks and timers",
  "other events of any kind may happen during the wait; the wait is random and must be long enough that the same stored reply is not fetched again",
  FP+"::onSyncData", FP+"::sendSyncInterest", FP+"::scheduleSyncInterest")
p("With clocks that agree, rounds of sync Interests bring all nodes up to date whatever the stores hold",
  "If nobody publishes any more, and then there are more rounds than twice the number of publications some node has not heard of, plus one, then all nodes hold for every prefix the largest number any of them held - even if nodes answer from their segment stores with replies made before the last publications, and whether or not the differences between the tables decode.",
  "all groups, tables, contents of the stores, histories before the last publication, orders of exchanges within a round, clocks that differ by less than 45 ms",
  "an old stored reply is served again only if timers of two nodes meet in a certain way; that the wait after a reply without news outlasts the stored reply is a fact about both nodes' timers",
  FP+"::onSyncData", FP+"::sendSyncInterest", FP+"::onSyncInterest", SP+"::publish", SP+"::replyFromStore")
p("A full-sync node asks again in time",
  "After a fetch that fails with anything but a timeout, and after a reply that brings updates, a node has sent a sync Interest when more than 500 ms have passed.  In any stretch of time longer than lifetime/2 + syncReplyFreshness + 1000 ms it sends a sync Interest.",
  "all reachable states, all later histories of calls (also from the update callback), Interests, Data, nacks and timers",
  "every event may cancel or replace the timer; the order of events within the stretch is unbounded",
  FP+"::sendSyncInterest", FP+"::onSyncData")
p("A full-sync node does not repeat a sync Interest within 100 ms",
  "A node does not send two sync Interests of the same name, with no other sync Interest between them, within less than 100 ms, unless it has sent Data under that name in between.",
  "all states, all histories",
  "the Interests may be sent by any two of the six places that send one",
  FP+"::sendSyncInterest", FP+"::sendSyncData")
p("A waiting subscriber misses nothing, a late one is answered at once",
  "A consumer and a partial-sync producer that exchange Interests and Data (in any order, with losses): while the consumer's last sync Interest waits at the producer, the consumer has the producer's current number for every prefix it is subscribed to.  If that Interest arrives while some number is missing and no stored reply answers it, the producer answers it at once, with one packet named after its current IBF or a nack.  After the consumer has processed a reply it has all numbers of the state whose IBF is in the name of the packet.  (The application subscribes with numbers that are not ahead of the IBF the consumer holds, and hash collisions are excluded, as in C45.)",
  "all histories of producer, consumer and deliveries",
  "the state of the consumer and what the producer has parked are related only through all that was exchanged before",
  PP+"::onSyncInterest", PP+"::satisfyPendingSyncInterests", CO+"::sendSyncInterest", CO+"::onSyncData", CO+"::onHelloData")
p("A parked sync Interest is kept for its lifetime",
  "A sync Interest that a producer parks stays parked until its lifetime is over, unless the producer sends Data for it (or it is received again, which starts its time anew).  In partial sync it may also be dropped when a publication makes the difference to its IBF undecodable.",
  "all reachable states, Interests, later histories",
  "timers, other Interests, publications and Data of the node's own fetches all touch the table of parked Interests",
  FP+"::onSyncInterest", FP+"::deletePendingInterests", FP+"::onSyncData", FP+"::processWaitingInterests", PP+"::onSyncInterest", PP+"::satisfyPendingSyncInterests")
p("Delayed Interests are retried in time",
  "While a full-sync node delays an Interest it retries it at least once in every 500 ms.  An Interest that stays ahead of the node is delayed for at most 1000 ms, and none for more than 32767.5 s.",
  "all reachable states and later histories",
  "the timer is armed, kept or re-armed depending on what else waits; the last bound is about nine hours",
  FP+"::processWaitingInterests", FP+"::scheduleProcessWaitingInterests", FP+"::onSyncInterest")
p("What a producer sends is never older than its freshness",
  "Every Data sent by a full-sync node, also one found in its segment store, is an application nack or a segment of a reply that the node made at most max(syncReplyFreshness, 10 ms) before, listing numbers that were current (or, for a name being published, not above the current number) at that time.  The same holds for a partial-sync producer with max(syncReplyFreshness, helloReplyFreshness); its hello replies list the whole table of that time.  When no reply was made for longer than that, nothing is answered from the store.",
  "all reachable states and events",
  "stored packets can be replaced, evicted, published again and served at any later time; what is served depends on the whole history",
  SP+"::publish", SP+"::replyFromStore", FP+"::sendSyncData", FP+"::onSyncInterest", PP+"::onHelloInterest", PP+"::onSyncInterest")
p("A subscriber is told only what was published",
  "In any exchange between a partial-sync producer and a consumer (Data lost, delayed, repeated, reordered or cached, but none forged): every number the hello callback offers was the producer's at some earlier moment; every highest number the update callback reports, and every number getSeqNo returns, was published by a call of publishName before, or was given by the application itself when it subscribed.  If the producer does not remove the prefix, the consumer is never ahead of it.",
  "all histories of producer, consumer and deliveries, all applications",
  "numbers reach the consumer through IBFs, Bloom filters, segments and stores; any mix-up of packets would show only in rare orders",
  CO+"::onHelloData", CO+"::onSyncData", CO+"::addSubscription", PP+"::onSyncInterest", PP+"::onHelloInterest", PP+"::satisfyPendingSyncInterests")
p("The example consumer prints everything that is published",
  "The example consumer run with a partial-sync producer: while its last sync Interest waits at the producer, it has printed, for every prefix it is subscribed to (and that the producer has not removed), consecutive numbers, each once, the last being the producer's current number; since any earlier moment it has printed exactly the numbers published since.  It never prints up to a number that was not published.",
  "all histories of the producer, losses, delays, nacks, time-outs and orders of events, all choices of subscriptions",
  "what is printed depends on everything exchanged before; a lost update would only show as a missing line",
  "examples/consumer.cpp::afterReceiveHelloData", "examples/consumer.cpp::processSyncUpdate", CO+"::onSyncData", CO+"::onHelloData", PP+"::satisfyPendingSyncInterests")
p("What becomes of a partial-sync Interest",
  "A well-formed sync Interest that is not answered from the segment store is nacked if the IBF difference does not decode (and nothing else changes); answered at once, with the publications in the difference whose prefix passes the filter, if there are any or the difference has reached half of ibfCount; and otherwise parked, with its own filter and IBF and until its lifetime is over, and nothing is sent.  In each case nothing else is parked or dropped.",
  "all reachable states, well-formed Interests (also such that ask for a segment)",
  "the three outcomes depend on the decoded difference of two IBFs of any content",
  PP+"::onSyncInterest", PB+"::sendApplicationNack")
p("What becomes of a full-sync Interest",
  "A well-formed sync Interest that is not answered from the segment store.  If the IBF difference decodes, it is parked until its lifetime is over if there is no difference; it is delayed if the requester has publications the node lacks and lacks none; otherwise it is answered at once, with the publications the requester lacks except those of which it has the very next number, and ignored if none are left.  If it does not decode, it is delayed if it reports more publications than the node has, ignored if it reports as many and only publications that the node lacks were found, and otherwise answered with everything the node has, with a freshness of 10 ms.  Nothing else is sent, except a new sync Interest if the one answered has the name of the node's own.",
  "all reachable states, all well-formed Interests; for Interests of other nodes in terms of their publications",
  "the outcome depends on the decoded difference of two IBFs of any content and on the numbers of publications",
  FP+"::onSyncInterest", FP+"::sendSyncData", FP+"::isFutureHash")
p("Every segment of a reply can be fetched while it is fresh",
  "A reply published by a producer (to a hello or sync Interest, or when a publication answers waiting Interests) stays available, whatever happens afterwards: until its freshness is over, and as long as no more than imsLimit packets were published from it on and no other reply has the same or a shorter name with version, an Interest for any of its segments is answered with exactly that segment and nothing else happens.",
  "all reachable states, all events after the reply, replies of any size",
  "segments are asked for later and one by one, with other replies, timers and evictions in between",
  SP+"::publish", SP+"::replyFromStore", FP+"::sendSyncData", FP+"::onSyncInterest", PP+"::onHelloInterest", PP+"::onSyncInterest", PP+"::satisfyPendingSyncInterests")
p("A group of full-sync example programs prints everything",
  "Full-sync example programs, each with its own streams, over a network that may lose, delay, repeat, reorder and cache packets but forges none.  At any moment: what a program has published for a stream is 1, 2, ..., k without a gap, with exactly one more update scheduled while k is below the limit and none when k is the limit; what another program has printed for the stream is an initial piece of that; nothing is printed for a program's own streams or for names that are nobody's stream.  When nothing is scheduled any more and exchanges as in C57 have carried what each program knew to every other one, every program has printed 1, 2, ..., limit for every stream of the others.",
  "all finite groups with distinct streams and limits of at least 1, all runs in which no two replies have the same version; for the last sentence runs without hash collisions and exchanges not answered from the segment store",
  "a missing, repeated or invented line appears only in particular interleavings of updates, replies and losses of several programs",
  "examples/full-sync.cpp::processSyncUpdate", "examples/full-sync.cpp::doUpdate", FP+"::onSyncInterest", FP+"::onSyncData", FP+"::publishName")
p("A full-sync group converges within a bounded time",
  "Full-sync nodes stop publishing, and from then on every sync Interest reaches all other nodes and, if some reply, one of their replies is fetched, all within D ms.  Let W be at least lifetime/2 + syncReplyFreshness + 1000 ms (plus twice the time timers may be late), and let the clocks differ by at most d.  If x publications are missing then, counted per node, then when (2x + 2) * (2W + D + d) ms have passed every node holds, for every prefix, the largest number any node held at the start - whatever is in the segment stores and in the queues of waiting Interests, and whether or not the differences between the tables decode.",
  "all finite groups with the same syncReplyFreshness and clocks that differ by less than 45 ms (less half of the time timers may be late), all earlier histories without removals (any losses), all orders of events; without hash collisions, publications of number 0, two replies of the same version, or numbers that add up to 2^64",
  "the time depends on timers, stale replies, suppressed Interests and retries of all nodes; a case in which a node stays behind for long needs a particular history",
  FP+"::sendSyncInterest", FP+"::onSyncInterest", FP+"::onSyncData", FP+"::processWaitingInterests", FP+"::scheduleProcessWaitingInterests", SP+"::replyFromStore")
p("A consumer asks again in time",
  "A consumer that has sent a hello Interest, is not stopped, and whose application calls sendSyncInterest in every hello callback sends another hello or sync Interest at least every 2L + 500 ms (plus the time timers may be late), if no fetch of it goes on for more than L ms - whatever packets it receives, and however fetches end (in data, nacks, time-outs or errors).",
  "all runs of a consumer in which retries are delayed by at most 500 ms (as in the code) and sync fetches complete with a last segment, all moments after the first hello Interest",
  "silence would need a particular sequence of failures and replies, and tests wait only for expected events",
  CO+"::sendHelloInterest", CO+"::onHelloData", CO+"::sendSyncInterest", CO+"::onSyncData")
p("A subscriber learns of a publication within a bounded time",
  "A partial-sync producer and a consumer whose application has said hello, keeps its subscription to p, does not stop, and calls sendSyncInterest in every hello callback.  From some moment on, whatever the consumer sends reaches the producer, and if the producer sends something in answer the fetch completes, all within D ms.  Then, whatever was lost before and whatever is in the segment store, within max(syncReplyFreshness, helloReplyFreshness) + 2L + 500 + 2D ms (plus the difference of the clocks and the times timers may be late) the consumer's number for every subscribed prefix is at least the one the producer had at that moment, and the update callback has been told of every number in between, in order and without gap or overlap.  L is the time after which fetches end at the latest.",
  "all earlier histories of producer and consumer without removals at the producer (any losses, delays, repetitions, nacks, time-outs), all orders of events, applications that add subscriptions only as C45 demands; without hash collisions and without two replies of the same name and version",
  "the delay depends on old replies in the store, parked Interests, nacks and retries; a case in which a subscriber stays behind for long needs a particular history",
  CO+"::sendHelloInterest", CO+"::onHelloData", CO+"::sendSyncInterest", CO+"::onSyncData", PP+"::onHelloInterest", PP+"::onSyncInterest", PP+"::satisfyPendingSyncInterests", SP+"::replyFromStore")
p("A group of full-sync example programs prints everything within a bounded time",
  "Full-sync example programs, each with its own streams and a limit of at least 1, draw delays of at most D ms (60000 in the code), run their updates at most l ms late, and packets are delivered as in C81 from some moment on (any losses before).  A program whose clock has passed limit * (D + l) has published 1, 2, ..., limit for each of its streams.  If X is a time not before that moment nor before the last update can be due, then within (2x + 2) * (2W + E + d) ms after X, where x is the number of programs times the number of all updates, E the time packets take, and W, d are as in C81, every program has printed exactly 1, 2, ..., limit for each stream of each other program.",
  "all finite groups of programs with distinct streams, the same syncReplyFreshness and clocks that differ by less than 45 ms (less half of the time timers may be late), all runs; without hash collisions or two replies of the same version",
  "the programs run for minutes with random delays; a line that comes too late or never needs a particular history",
  "examples/full-sync.cpp::processSyncUpdate", "examples/full-sync.cpp::doUpdate", FP+"::sendSyncInterest", FP+"::onSyncInterest", FP+"::onSyncData", FP+"::publishName")
p("The example consumer prints a publication within a bounded time",
  "The example consumer run with a partial-sync producer that removes no prefix.  From some moment on, at which it is subscribed to p, packets take at most D ms (as in C83).  Then, whatever was lost before, within max(syncReplyFreshness, helloReplyFreshness) + 2L + 500 + 2D ms (plus the difference of the clocks and the times timers may be late) it has printed, on top of what it had printed for p, exactly the numbers from the one after its own up to one that is at least the producer's number at that moment and not above the producer's current number.  If the producer is the example producer with limit N, at most d ms between two updates and none more than l ms late, and that moment is more than N * (d + l) ms after its start, then from the same time on the producer has printed 1, 2, ..., N and the consumer consecutive numbers up to N, each once, and this does not change any more.",
  "all earlier histories of the two programs (any losses, delays, repetitions, time-outs), all choices of subscriptions, all draws of the delays; without hash collisions and without two replies of the same name and version",
  "what is printed in time depends on stored replies, parked Interests, retries and the timers of both programs",
  "examples/consumer.cpp::afterReceiveHelloData", "examples/consumer.cpp::processSyncUpdate", "examples/producer.cpp::doUpdate", CO+"::onSyncData", CO+"::onHelloData", CO+"::sendSyncInterest", PP+"::onSyncInterest", PP+"::satisfyPendingSyncInterests")
p("A destroyed object is not used any more",
  "After a FullProducer, PartialProducer or Consumer has been destroyed while its Face lives on (the prefix registration of a producer having been answered before), no later event on the Face - an Interest, a segment, the end of a fetch - runs code of the destroyed object.  In particular every fetch that a newer sync or hello Interest has superseded was stopped.",
  "all states in which the object can be destroyed, all later sequences of events on the Face",
  "use after free shows only if the object is destroyed at the right moment and the memory has been reused",
  FP+"::~FullProducer", FP+"::sendSyncInterest", "PSync/partial-producer.cpp::PartialProducer", CO+"::stop", CO+"::sendHelloInterest", CO+"::sendSyncInterest")
p("Probabilities of whole thousandths survive the transmission",
  "A consumer whose false-positive probability is a literal of at most three decimals from 0 to 1 (the double nearest to k/1000) transmits k, and the producer makes the same double from it; so, provided the consumer's filter could be built, the producer reads from the sync Interest a filter that answers every question as the consumer's own does.  For every other double from 0 to 1 a number t up to 1000 is transmitted; the probability is below (t+1)/1000, the one the producer makes is at most the next double above it, and sending that again changes nothing.",
  "all k from 0 to 1000, all doubles from 0 to 1, any std::log and std::pow, all reachable consumer states",
  "a product with 1000 that is rounded down just below k would shift the filter size of both ends for a few of all doubles only",
  "PSync/detail/bloom-filter.cpp::appendToName", PP+"::onSyncInterest", CO+"::sendSyncInterest")
p("No Interest makes the behaviour of a producer undefined",
  "Whatever Interest reaches a producer, handling it ends, in a reply, a nack, a parked Interest or nothing - never in undefined behaviour (signed overflow, division by zero, an access out of bounds, a conversion of a number that does not fit) or an endless loop.",
  "all reachable states of full-sync and partial-sync producers, all Interests",
  "an attacker chooses the bytes of the IBF and the numbers of the filter; tests use those of well-behaved nodes",
  FP+"::onSyncInterest", PP+"::onSyncInterest", PP+"::onHelloInterest", "PSync/detail/bloom-filter.cpp::compute_optimal_parameters", "PSync/detail/iblt.cpp::operator-")
p("At most one Data per Interest",
  "At no time has a producer put more Data on the face than it has received Interests; and every Interest that is still parked is one more that has not been used up.",
  "all runs of full-sync and partial-sync producers: any Interests in any order, repeated or not, publications, sync Data, removals, timers",
  "surplus Data are dropped silently by the forwarder; a test that looks for the expected Data does not see them",
  FP+"::onSyncInterest", FP+"::processWaitingInterests", FP+"::satisfyPendingInterests", PP+"::onHelloInterest", PP+"::onSyncInterest", PP+"::satisfyPendingSyncInterests", SP+"::publish", SP+"::replyFromStore")
p("Everything a producer sends fits into an NDN packet",
  "If the sync prefix, the IBF (not compressed) and the signature have together at most 4311 bytes, then every Data and every Interest that a producer sends is at most 8800 bytes long (the limit above which the face refuses to send and throws), provided that the Interests it receives are.",
  "all such options; all runs of full-sync and partial-sync producers: any number of prefixes, any publications, any received packets",
  "the size of the largest segment depends on the names of the Interests and on the amount of content; tests use few and short names",
  SP+"::publish", PB+"::sendApplicationNack", FP+"::sendSyncInterest", FP+"::sendSyncData", PP+"::onHelloInterest", PP+"::onSyncInterest", PP+"::satisfyPendingSyncInterests")
p("The hash functions of a filter are as many as computed and all different",
  "A Bloom filter that is made for k hash functions has exactly k salts, no two of them equal and none zero.  Up to 128 they are the predefined ones, each multiplied with the one three places further on and increased by the seed; beyond, the 128 predefined ones followed by products of random numbers.  They depend on nothing but k, so that consumer and producer have the same.",
  "all numbers of hash functions, all sequences of values of rand()",
  "two equal salts show only as a higher rate of false positives, and salts that differ between the ends as updates that never arrive for some prefixes",
  "PSync/detail/bloom-filter.cpp::generate_unique_salt")
p("A consumer sends no Interest without a reason",
  "At any time the hello Interests (and likewise the sync Interests) that a consumer has sent, together with the retries it has scheduled, are at most as many as the reasons it had for them.  The reasons for a hello Interest are: a call of sendHelloInterest, a hello fetch that failed, a segment of an application nack.  The reasons for a sync Interest are: a call of sendSyncInterest, a sync fetch that failed, a complete sync reply that is not a nack.  If the application never calls stop and makes no calls from its update callback, there is exactly one Interest, sent or scheduled, for every reason.  The consumer sends no other Interests.",
  "all runs of a consumer: any calls, also from callbacks, any replies, errors, timers",
  "two fetches for one reason look like one to the application, since the second replaces the first; they double with every round",
  CO+"::sendHelloInterest", CO+"::sendSyncInterest", CO+"::onSyncData", CO+"::onHelloData", CO+"::stop")
p("What becomes of a delayed full-sync Interest",
  "When the timer of the delayed Interests runs, and when a sync reply has brought updates, every delayed Interest is looked at once more.  It is dropped if it was answered in the meantime.  If the segment store has a packet for it, that is sent and it stays delayed.  If the IBF difference now decodes: it is parked for 4 seconds and no longer delayed if there is no difference; if the requester is still ahead it stays delayed the first time and is dropped the second time; otherwise it is answered with what the requester lacks and no longer delayed (it stays delayed if nothing is to be named).  If it does not decode and reports more publications than the node has, it stays delayed the first time; the second time it is dropped and the node sends a sync Interest of its own, unless it is waiting for a reply to become stale or has sent the same less than 100 ms ago.  If it does not decode and reports as many, and only publications that the node lacks were found, it stays delayed; otherwise it is answered with everything the node has and dropped.  If any are left the timer is set again, for 100 to 500 ms.",
  "all reachable states of a full-sync node, any number of delayed Interests",
  "the second look happens after a random delay, only if the first did not answer, and depends on what arrived in between",
  FP+"::processWaitingInterests", FP+"::scheduleProcessWaitingInterests", FP+"::onSyncInterest")
p("A compression scheme that the library was built without is refused",
  "detail::compress followed by detail::decompress with the same scheme gives back every buffer if the library was built with the scheme; otherwise both throw.  The default scheme is always one that the library was built with, and nodes with the default options understand each other.  A producer whose options name a scheme that the library was built without cannot be constructed.",
  "all ways to build the library (each of ZLIB, GZIP, BZIP2, LZMA, ZSTD present or not), all schemes, all buffers, all runs of the producers",
  "a test suite is built one way, and its schemes are those of that build",
  "PSync/detail/util.cpp::compress", "PSync/detail/util.cpp::decompress", "PSync/common.hpp::CompressionScheme", FP+"::FullProducer", FP+"::sendSyncData", FP+"::onSyncData", PP+"::PartialProducer")
p("Every value of the constructor options gives a working producer",
  "A producer that could be constructed can register a prefix and publish it, whatever the value of ibfCount.  The deprecated constructors do the same as the constructors with the corresponding options and then register the user prefix; the IBF has room for as many entries as were asked for.",
  "all values of the options and of the arguments of the deprecated constructors",
  "tests use the default count or a handful of others; the extreme values fail only with the first publication",
  FP+"::FullProducer", PP+"::PartialProducer", "PSync/detail/iblt.cpp::IBLT", PB+"::updateSeqNo")
p("A producer can serve every consumer that could be constructed",
  "Whatever number of elements and false positive probability a Consumer was constructed with, a PartialProducer that receives a sync Interest of that consumer, carrying the producer's own current IBF, processes it without undefined behaviour.  The constructor of the consumer refuses a count of 0 and negative and infinite probabilities.",
  "all counts and probabilities, all runs of the consumer, all reachable states of the producer, every std::log and std::pow that agree with the C standard at 0, 1 and below 0",
  "tests use the default probability 0.001; the consumer itself works with a smaller one, and what fails is another program",
  CO+"::Consumer", CO+"::sendSyncInterest", "PSync/detail/bloom-filter.cpp::appendToName", "PSync/detail/bloom-filter.cpp::compute_optimal_parameters", PP+"::onSyncInterest")
p("Every value of the constructor options gives a working consumer",
  "Whatever values the options of a Consumer have, either the constructor throws or it returns a consumer whose addSubscription and removeSubscription never fail.  The default options give a working consumer.  The deprecated constructor does the same as the constructor with the corresponding options.",
  "all counts, probabilities (including NaN, infinities, subnormal numbers) and lifetimes, everything that happens to the consumer afterwards, every std::log and std::pow that agree with the C standard at 0, 1 and below 0",
  "tests use the default options; the size of the table is the least of 999 floating-point numbers, and its extremes come from roundings",
  CO+"::Consumer", CO+"::addSubscription", "PSync/detail/bloom-filter.cpp::compute_optimal_parameters", "PSync/detail/bloom-filter.cpp::BloomFilter")
p("Producers with the same publications are interchangeable",
  "Two PartialProducers with the same sync prefix and options whose getSeqNo agrees for every prefix do the same with every hello and sync Interest that neither answers from its segment store: they send packets that differ at most in the version component, or both send the same nack, or both park the Interest, or both ignore it, whatever their histories, clocks, stores and other parked Interests are.  If they also have the same Interests parked and publish the same, they answer the same of them, again with packets that differ at most in the version, and agree again.",
  "all pairs of reachable states with the same publications, all Interests, all calls of publishName",
  "tests have one producer; histories that lead to the same publications are unboundedly many",
  PP+"::onHelloInterest", PP+"::onSyncInterest", PP+"::publishName", PP+"::satisfyPendingSyncInterests", PB+"::updateSeqNo")
p("A full-sync node sends a bounded number of sync Interests",
  "Since its construction a FullProducer has sent no more sync Interests than 1, plus one for every 100 ms that have passed, plus one for every sync Interest it has received.  If all its fetches time out it is one for every syncInterestLifetime/2 + 100 ms instead.  An Interest that is received makes it send at most one at once.  The same holds between any two moments, with one more for the timer and one for every Interest that was parked or delayed at the first.",
  "all configurations with valid jitter, all runs: any number of publications, replies, failures, retries and callbacks",
  "tests check that an Interest is sent, not that no others are; a feedback loop between fetching and sending needs a particular order of replies and failures",
  FP+"::sendSyncInterest", FP+"::sendSyncData", FP+"::onSyncInterest", FP+"::onSyncData", FP+"::processWaitingInterests", FP+"::satisfyPendingInterests")
p("The Interests of other groups do not disturb a full-sync node",
  "A FullProducer receives every Interest below its sync prefix, also those of full-sync groups with a longer sync prefix and those of consumers with the same or a longer sync prefix.  It ignores all of them: it sends nothing, throws nothing and its state stays as it is.",
  "all reachable states of the node, of the nodes of other full-sync groups and of the consumers; all sync prefixes that begin with that of the node; all lifetimes and nonces",
  "tests have one group; which branch is taken depends on how many components the other prefix has more, and on what the store has",
  FP+"::onSyncInterest", FP+"::FullProducer", CO+"::sendHelloInterest", CO+"::sendSyncInterest", PB+"::sendApplicationNack")
p("The example producers make as many streams as the command line says",
  "Whatever command line psync-producer or psync-full-sync is started with: with another number of arguments than four it prints how it is used; with a number that is not an int or a name that cannot be made it ends; otherwise it runs with as many streams as asked for, all with different names, and the limit that was given.  psync-consumer subscribes to the number given.",
  "all command lines: any number of arguments, any texts",
  "the examples have no tests; the names are made of free text by way of a URI parser, and the numbers are unbounded",
  "examples/producer.cpp::main", "examples/producer.cpp::PSyncPartialProducer", "examples/full-sync.cpp::main", "examples/full-sync.cpp::Producer", "examples/consumer.cpp::main")
p("The printed IBF shows what is in it",
  "The text that operator<< makes of an IBF has a line for every entry.  It shows how many of the keys that were inserted and not erased are stored in the entry, their exclusive or, and whether the check value fits, which it always does for no key and for one key.  The text can be read in one way only.  IBFs with the same text have the same counts and key sums.  Bloom filters have the same text exactly if they are equal.  The text of a State tells its names and their order.",
  "all capacities above 0, all histories of insert and erase, all key sets, all lists of names",
  "tests compare one printed IBF with a constant; that the text is unambiguous is a statement about all pairs",
  "PSync/detail/iblt.cpp::operator<<", "PSync/detail/bloom-filter.hpp::operator<<", "PSync/detail/state.cpp::operator<<", "PSync/detail/iblt.cpp::insert", "PSync/detail/iblt.cpp::erase")
p("Nothing published before the prefix is registered is lost",
  "Until the forwarder has accepted the sync prefix, a PartialProducer answers no Interest and keeps none.  What is added, removed and published meanwhile counts: the state is that of a producer registered from the start that received the later Interests only, and the first hello Interest after the success is answered with every prefix and its current number.  A FullProducer does not wait: its states before the success are those of a registered one.  If the forwarder refuses the prefix, both throw ProducerBase::Error out of the event loop.",
  "all sequences of events, with the answer of the forwarder at any moment or never",
  "tests use a face that accepts the registration at once",
  "PSync/partial-producer.cpp::PartialProducer", "PSync/full-producer.cpp::FullProducer", "PSync/producer-base.cpp::onRegisterFailed", "PSync/partial-producer.cpp::onHelloInterest")
p("Nodes with IBFs of different sizes ignore each other",
  "A FullProducer ignores every sync Interest of a node of the same group whose option ibfCount gives an IBF of another size: nothing is sent and nothing changes.  A PartialProducer ignores every sync Interest that carries the IBF of a producer with another size.  Values of ibfCount that give the same size (2k-1 and 2k) understand each other: the IBF is read as the sender had it.",
  "all options, all states of both nodes, all Interests sent",
  "tests use one ibfCount for all nodes; the size of the IBF is not part of the Interest, and an answer from the store could slip through",
  "PSync/full-producer.cpp::onSyncInterest", "PSync/partial-producer.cpp::onSyncInterest", "PSync/detail/iblt.cpp::initialize", "PSync/detail/iblt.cpp::IBLT", "PSync/detail/iblt.cpp::appendToName")
p("Every Interest of a consumer fits into an NDN packet",
  "If the sync prefix and the filter of a Consumer have together at most 400 bytes, every hello and sync Interest that it sends is at most 8800 bytes long (the limit above which the face refuses to send and throws), provided that the Data it receives are.",
  "all options, all histories of calls and events, all Data received",
  "the IBF in a sync Interest is copied from the name of whatever Data came last; tests use a small one",
  "PSync/consumer.cpp::sendSyncInterest", "PSync/consumer.cpp::sendHelloInterest", "PSync/consumer.cpp::onHelloData", "PSync/consumer.cpp::onSyncData", "PSync/detail/bloom-filter.cpp::appendToName")
p("What a node remembers does not grow with the number of publications",
  "A producer has numbers only for prefixes that the application added or, in full sync, that a reply announced; its table of names and hashes has at most one entry for each prefix with a publication; its IBF keeps the size it was constructed with; and its segment store stays within its limit.  A consumer has numbers only for prefixes it subscribed to or that a sync reply announced, and its filter keeps its size.  So, with publications of any number under a given list of prefixes, none of these tables ever has more entries than the list.",
  "all histories of calls, received Interests and Data, callbacks and timers; all lists of prefixes; with and without hash collisions",
  "tests make few publications and do not look at sizes; a forgotten erasure shows only as slow growth",
  PB+"::addUserNode", PB+"::removeUserNode", PB+"::updateSeqNo", FP+"::onSyncData", PP+"::publishName", CO+"::addSubscription", CO+"::onSyncData", "PSync/segment-publisher.cpp::publish")
p("Consumers with the same subscriptions are interchangeable",
  "Two Consumers with the same sync prefix and options that are subscribed to the same prefixes and last received the same IBF send the same sync Interest, whatever their numbers and histories are.  If they also have the same numbers and the same fetches running, they do the same with every call, segment, complete reply and failure: both fail in the same way, or both send and report the same and agree again.  Their clocks, timers and random numbers may differ.",
  "all pairs of reachable states that agree, all events, all options for which a consumer is constructed",
  "tests have one consumer; the histories that lead to the same subscriptions are unboundedly many, and the filter is changed by each subscription and rebuilt by each removal",
  CO+"::addSubscription", CO+"::removeSubscription", CO+"::sendSyncInterest", CO+"::onHelloData", CO+"::onSyncData", "PSync/detail/bloom-filter.cpp::insert", "PSync/detail/bloom-filter.cpp::clear")
p("Publications after a restart are reported",
  "A producer that is restarted starts with sequence number 0 again.  When it publishes a prefix of its previous life and another member (or a subscribed consumer) that knows the prefix from then receives a reply with the new number, it reports the new publication through its update callback.",
  "all full-sync members and consumers in any reachable state, all replies, all prefixes and numbers before and after the restart",
  "tests run each node once and from number 0; what happens depends on the relation of two numbers from different lives and on whether the node hears of its old number before it publishes",
  FP+"::onSyncData", FP+"::publishName", PB+"::updateSeqNo", CO+"::onSyncData")
p("A removed prefix stays removed",
  "After removeUserNode(p), getSeqNo(p) has no value until the application calls addUserNode(p) again, whatever is published or received in between, and no publication of p is reported in the meantime.",
  "all reachable states of full-sync members and PartialProducers, all prefixes, all sequences of events after the removal",
  "tests look at getSeqNo right after the removal; what the other members of the group still have and send later is not part of them",
  PB+"::removeUserNode", PB+"::addUserNode", FP+"::onSyncData", PP+"::publishName")
p("Nothing that is received keeps a producer from publishing",
  "Whatever Interests and Data a producer receives, publishName(p) without a number, on a registered prefix whose number was below 2^64-1 before, gives p a higher number than it had, and the members and consumers that learn of it report it.",
  "all reachable states, all sequences of received messages, failures and timers without calls of the application, all prefixes and numbers",
  "Data is not validated, so its contents are arbitrary; tests receive numbers that were published",
  FP+"::onSyncData", FP+"::publishName", PP+"::publishName", PB+"::updateSeqNo", CO+"::onSyncData")
p("A producer that reads a sync Interest finds the subscriptions in it",
  "Whatever number of elements and false positive probability a Consumer was constructed with: if a PartialProducer of the same sync prefix can read the filter in a sync Interest of the consumer, then it finds every prefix the consumer is subscribed to in that filter, so that it tells the consumer about them.",
  "all consumers and all histories of them, all counts and probabilities, all producers and publications",
  "depends on how the rounding of the probability, of the size and of the number of hash functions interact; tests use 0.001",
  BF+"::appendToName", BF+"::compute_optimal_parameters", BF+"::generate_unique_salt", CO+"::sendSyncInterest", PP+"::onSyncInterest")
p("Parked Interests do not accumulate at a PartialProducer",
  "If more time has passed since some moment than the lifetime of any sync Interest that was received before it, then a PartialProducer keeps at most as many parked Interests as it has received Interests since.  In particular nothing is parked when no Interest has come for long enough.",
  "all sequences of events of a PartialProducer, all moments in them, all Interests received",
  "a test parks a few Interests and does not look at the table of parked Interests after their time",
  PP+"::onSyncInterest", PP+"::satisfyPendingSyncInterests")
p("Interests of others do not accumulate at a FullProducer",
  "If more time has passed since some moment than the lifetime of any sync Interest received before it and than 65535 retries of the waiting list (500 ms each at most) and 4 s, then a FullProducer keeps, both in its table of parked Interests and in its list of waiting Interests, only Interests it has received since, and not more of them than it has received.  In particular it keeps nothing when it has heard nothing for that long.",
  "all sequences of events of a FullProducer (Interests, Data, failures, timers, calls), all moments in them, all Interests received, all jitter",
  "a test parks a few Interests and does not look at the two tables hours later; whether an Interest may move from one table to the other and back for ever depends on all sequences of events",
  FP+"::onSyncInterest", FP+"::processWaitingInterests", FP+"::scheduleProcessWaitingInterests", FP+"::satisfyPendingInterests")
p("An Interest that waits at a FullProducer waits a second at most",
  "An Interest that is put on the waiting list, because it is about data the node does not have yet, is retried at most twice: it is answered, parked or given up within two intervals of at most 500 ms.",
  "all sequences of events of a FullProducer, all Interests that wait and all changes of the state of the node in the meantime, all jitter",
  "tests let an Interest wait and then either bring the data or nothing; that the node publishes, or learns, something else in the meantime is not among them",
  FP+"::onSyncInterest", FP+"::processWaitingInterests", FP+"::scheduleProcessWaitingInterests", FP+"::isFutureHash")
p("No reply lists a prefix twice",
  "Every sync or hello reply of a producer lists each prefix at most once, whatever Interest it answers and even if hashes collide: no name occurs twice and no prefix with two numbers.",
  "all sequences of events of both kinds of producers, all Interests received (honest or not), all Data ever sent, from the segment store or not",
  "depends on the sets that result from the difference with an arbitrary received IBF and on what was learned between parking and answering an Interest",
  FP+"::onSyncInterest", FP+"::satisfyPendingInterests", PP+"::onSyncInterest", PP+"::onHelloInterest", PP+"::satisfyPendingSyncInterests")
p("The order in which a consumer receives replies does not matter",
  "A Consumer that processes the same hello and sync replies in any order, any number of times each, with failures, timeouts, nacks and calls about other prefixes in between, ends with the same number for every prefix it is subscribed to, and its update callback has been told the same numbers of it: those above the number at the beginning up to the number at the end.",
  "all reachable consumers, all pairs of sequences of events that process the same set of contents, all subscribed prefixes, all calls from callbacks that leave the prefix alone",
  "tests deliver replies in the order in which they were sent",
  CO+"::onSyncData", CO+"::onHelloData")
p("Full-sync nodes with the same publications give the same answers",
  "Two FullProducers with the same sync prefix and options and the same sequence numbers put the same packets, up to the versions, in answer to an Interest that neither answers from its segment store, whatever their histories, clocks, parked, waiting and outstanding Interests; and if they hold back the same Interests, also when they publish the same name.",
  "all pairs of reachable states with equal getSeqNo, all Interests (honest or not), all publications, all versions and jitters",
  "tests drive a single node and do not compare nodes that got to the same state on different ways",
  FP+"::onSyncInterest", FP+"::sendSyncData", FP+"::satisfyPendingInterests", FP+"::publishName", FP+"::isFutureHash")
p("A group that agrees stays at rest",
  "Once all nodes of a full-sync group have the same number for every prefix and nobody publishes or removes anything, no number changes and no update callback is called any more, however late, often and out of order Interests and replies arrive.",
  "all groups of any number of nodes, all runs over a network that loses, delays, duplicates and reorders, all moments at which the nodes agree, even if hashes collide",
  "tests stop when the nodes agree; what is still on its way or stored is not delivered any more",
  FP+"::onSyncData", FP+"::onSyncInterest", FP+"::sendSyncData", PB+"::updateSeqNo")
p("A subscriber that is up to date is left alone until the next publication",
  "If the number that a Consumer has for a prefix is still the producer's number at a later moment, its update callback has been told nothing of the prefix in between, whatever old, repeated or reordered replies and hello replies it has processed and whatever it has done with other prefixes.  (The producer does not remove the prefix, the consumer does not unsubscribe from it, and the numbers given when subscribing were numbers of the producer.)",
  "all runs of a partial-sync producer and a consumer over a network that loses, delays, repeats and reorders, all pairs of moments, all prefixes",
  "stored and delayed replies reach a subscriber long after newer ones only under load",
  CO+"::onSyncData", CO+"::onHelloData", PP+"::onSyncInterest", PP+"::onHelloInterest")
p("Each callback of a consumer describes one moment of the producer",
  "In any exchange between a partial-sync producer and a consumer (Data lost, delayed, repeated, reordered or cached, but none forged), the map given to the hello callback is exactly the producer's list of prefixes and sequence numbers at one moment: none is left out, none is added and no two moments are mixed.  The highest numbers in one call of the update callback are likewise the producer's numbers at one moment, except in the call that the application asks for when it subscribes.",
  "all runs of a producer and a consumer: every order of API calls, Interests, packets and timers, every configuration that both share",
  "Mixing the contents of two replies needs segments of two versions in one fetch and publications in between; a test sees single replies.",
  CO+"::onHelloData", CO+"::onSyncData", PP+"::onHelloInterest", SP+"::publish")
p("One call of an update callback mentions each prefix once",
  "The list that is given to an update callback never contains two entries for one prefix, so an application that handles the entries one by one does not fetch a range twice or in two parts: neither at a FullProducer of a group, however replies are parked, stored, delayed, repeated and cut into segments and even if a reply lists a prefix with two numbers (C115), nor at a Consumer that is served by a PartialProducer.",
  "all groups of any number of nodes and all runs of a producer and a consumer, all calls of the callback",
  "tests look at the numbers in an update, not at repeated prefixes, and a reply that lists a prefix twice needs a publication of an old number while an Interest is parked",
  FP+"::onSyncData", FP+"::sendSyncData", FP+"::satisfyPendingInterests", CO+"::onSyncData", CO+"::onHelloData")
p("A full-sync node is told nothing of what it published itself",
  "As long as a node does not remove a prefix, every range that its update callback is given for the prefix begins above all numbers the node itself has published for it before, whatever it receives, even forged replies.  In a group in which nobody else publishes the prefix, the callback of its publisher is never given the prefix at all, although the replies of the other nodes list it; in general, the highest number of every range reported in a group has been published by another node.",
  "all executions of a FullProducer and everything it receives; all groups of any number of nodes, all runs over a network that loses, delays, repeats and reorders",
  "tests have few nodes and let replies arrive at once; the own numbers come back in late and stored replies",
  FP+"::onSyncData", FP+"::publishName", PB+"::updateSeqNo")
p("An update callback is called at most as often as the others publish",
  "In a full-sync group, the update callback of a node that removes no prefix is called at most as often as the other nodes have published, all its calls together have at most that many entries, and no call is empty, however often replies are repeated, stored, delayed and reordered.  For every node that removes no prefix, whatever it receives, the highest numbers given for a prefix increase strictly from entry to entry.",
  "all groups of any number of nodes, all runs over a network that loses, delays, repeats and reorders; all executions of a FullProducer and everything it receives",
  "tests look at the numbers that are reported, and not at how often they are reported in a long run with repeated replies",
  FP+"::onSyncData", FP+"::publishName", PB+"::updateSeqNo")
p("A consumer's update callback is called at most as often as there are publications and subscriptions",
  "In any exchange between a partial-sync producer and a consumer that does not unsubscribe (Data lost, delayed, repeated, reordered or cached, but none forged), all calls of the update callback together have at most as many entries with a number other than 0 as publishName and addSubscription were called; so there are at most that many calls with such an entry.  For every consumer that does not unsubscribe, whatever it receives, the highest numbers given for a prefix increase strictly from entry to entry and no call is empty.",
  "all runs of a producer and a consumer: every order of API calls, also from inside callbacks, Interests, packets and timers, every configuration that both share; all executions of a consumer and everything it receives",
  "tests look at the numbers that are reported, and not at how often they are reported in a long run with hello and sync replies of different age and subscriptions made inside callbacks",
  CO+"::onHelloData", CO+"::onSyncData", CO+"::addSubscription", PP+"::publishName")

p("An update callback is never given an empty range",
  "Every entry that is given to an update callback names at least one sequence number: its lowest number is at least 1 and not above its highest number.  This holds at every node of a full-sync group and at every consumer that is served by a partial-sync producer.",
  "all groups of any number of nodes, all runs of a producer and a consumer, all calls of the callback",
  "an empty range needs a number 0 in a reply, which only a publication of the number 0 while an Interest is parked brings about; tests publish positive numbers",
  FP+"::onSyncData", FP+"::satisfyPendingInterests", CO+"::onSyncData", CO+"::onHelloData", PP+"::satisfyPendingSyncInterests")

out = os.path.join(os.path.dirname(os.path.abspath(__file__)), "..", "properties.jsonl")
with open(out, "w") as f:
    for x in P: f.write(json.dumps(x, ensure_ascii=False) + "\n")
print(len(P))
