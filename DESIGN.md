# PSync in Lean 4 — design

This file says what is modelled, what is trusted, and how each property of `properties.jsonl` is proved. It is
generated by `tools/gen_design.py` from `tools/design_head.md`, `tools/design_methods.md`, `properties.jsonl`,
`MANIFEST.json` and the output of `#print axioms`.

## Layout

* `lean/Verif/Model/` — transcription of `/repo/PSync`, function by function. Every definition cites file and lines.
* `lean/Verif/Spec/` — small specifications that the theorem statements use. They talk about calls, packets,
  callbacks and sequence numbers. Someone who knows the English property needs only the theorem and these files.
* `lean/Verif/Props/` — the property theorems `cNN_…`, the refutations `cNN_false`, and beside each a concrete case
  that meets the hypotheses.
* `lean/Verif/Proofs/` — lemmas.
* `seeded/LOG.jsonl` — wrong programs (edits of the model) and the theorems that fail on them.

A property that is false of the code keeps its full statement as `Spec.X` next to `cNN_false : ¬ Spec.X`, with a
concrete execution as witness. What does hold is then proved under the suffix `_partial`, and its comment says what
is missing.

## Shape of the model

* `Res α = ok a | throw e | ub u | hang` is the outcome of a C++ call. Undefined behaviour (signed overflow, division
  by zero, access out of bounds, floating-point conversion out of range) and an exception that leaves the handler are
  distinct outcomes. The peeling loop of the IBF difference has no bound in the code; the model gives it a fuel and
  reports `hang` when it is used up. Theorems about termination show that `hang` is not returned for any fuel above
  an explicit number; `c07_false` shows that it is returned for every fuel.
* Names are lists of components (type, bytes). TLV is modelled byte by byte, including non-minimal length fields.
* MurmurHash3 is modelled bit by bit on `BitVec 32`, for a little-endian host.
* IBF cells have an integer count with explicit checks of the `int32_t` range, and `BitVec 32` sums.
* `std::map` and `std::set` are association lists kept in the order of the map (NDN canonical order of names).
* Sequence numbers are natural numbers below 2^64; every addition in the code that can wrap is written `% 2^64`.
* FullProducer, PartialProducer and Consumer are state machines. An event is an API call, an Interest, a segment, the
  completion or failure of a fetch, a timer that fires, or the passing of time. `step` is a total computable function
  from state and event to a `Res` of the new state. What the application does inside a callback is a parameter
  of the event: a list of API calls, which the model executes where the callback is invoked.
* What the class does to the outside (Interest expressed, Data put, callbacks) is appended to a log in the state.
  Three further ghost fields have no influence on the behaviour: the history of the sequence-number table, the replies
  handed to the segmenter, and the publications made.
* Time is a natural number of milliseconds. Timers are deadlines in the state. A timer fires at its deadline or later,
  at most `lag` ms late; `lag` is a parameter of the configuration, so the theorems hold for every bound on lateness,
  and time bounds mention it. Jitter and version numbers are oracles, with the ranges of the code where a theorem needs them.
* Compression is any codec; the law used is `decompress (compress x) = x`, where needed.
* A group (`Spec/Group.lean`) is any number of full-sync nodes. Any Interest can be delivered to any node at any time.
  A fetch may complete with any packets that nodes of the group have ever sent, as long as they form the segments of
  one name and the first one satisfies the Interest. So loss, duplication, delay, reordering and caching are
  included. `Spec/PubSub.lean` is the same for a PartialProducer and a Consumer.
* Group theorems are proved through micro-steps (`Proofs/Micro.lean`, `Proofs/PartMicro.lean`): each event is a sequence of
  small changes of the view (table, replies, log, publications), and invariants are proved per small change.

## What is modelled

| file in /repo | modelled | not modelled |
|---|---|---|
| PSync/detail/iblt.{hpp,cpp} | all | |
| PSync/detail/util.{hpp,cpp} | murmurHash3; compress/decompress as a codec | the compression libraries |
| PSync/detail/state.{hpp,cpp} | all | how ndn-cxx prints a name (any function) |
| PSync/detail/bloom-filter.{hpp,cpp} | all | `std::log` and `std::pow` (parameters of `Libm.ieee`; the rest of the `double` arithmetic is modelled bit by bit in Model/Ieee.lean); `rand()` salts above 128 (oracle) |
| PSync/segment-publisher.{hpp,cpp} | all | signing |
| PSync/producer-base.{hpp,cpp} | all | signing; registration with the forwarder is in Model/Register.lean, elsewhere the producers are registered from the start (C103 carries the theorems over) |
| PSync/full-producer.{hpp,cpp} | all | logging; counters for tests |
| PSync/partial-producer.{hpp,cpp} | all | logging |
| PSync/consumer.{hpp,cpp} | all | logging |
| PSync/common.hpp | constants, MissingDataInfo | deprecated aliases |
| examples/{consumer,producer,full-sync}.cpp | all | logging; components with an equal sign in the names on the command line (any function) |

## Trusted base

* The Lean 4.33.0 kernel. The theorems use no axioms but `propext`, `Classical.choice` and `Quot.sound`; the list per theorem
  is at the end. There is no `sorry`, no `native_decide`, no `bv_decide`.
* That the model says what the C++ code does. The code was read, not executed.
* The behaviour of libraries that are not in `/repo`, as assumed in the model:
  * ndn-cxx TLV: `readVarNumber` accepts non-minimal encodings; a type is not 0 and at most 2^32-1; `Block(buffer)`
    accepts only an element that fills the buffer; `Name(Block)` does not check component types;
    `Component::toNumber` throws unless the value has 1, 2, 4 or 8 bytes; `appendNumber` writes the shortest of
    these; segment components have type 50, version components type 54; `Name(uri)` of `toUri()` is the same name.
  * ndn-cxx names: `get(i)` does not check bounds, a negative index counts from the end; `getSubName(-2)` and
    `getPrefix(-n)` as documented.
  * ndn-cxx `Name(uri)` (Model/CommandLine.lean, only for the command lines of the examples): a scheme and an authority are dropped,
    `%` and two hexadecimal digits are a byte, empty components and "." and ".." throw, a slash at the end is ignored. `std::stoi` and
    `std::to_string` as in the C++ standard.
  * ndn-cxx Segmenter: at least one segment; segments of the given size except the last; FinalBlockId in each.
  * ndn-cxx InMemoryStorageFifo: `find(Name)` returns the leftmost packet whose name extends the given name, without
    regard to freshness; insertion over the limit evicts the oldest packet; `erase` by prefix. Packets are told apart by
    name and digest: the model takes the same content under the same name to be the same packet (a signature that
    does not change), and takes no Interest to end in an implicit digest.
  * ndn-cxx SegmentFetcher: `onComplete` only after all segments up to the FinalBlockId; after `stop()`, no signal of that
    fetcher fires; `stop()` and replacement inside its own callback are safe; `afterSegmentValidated` before completion.
    Its retransmissions are not in the log: an Interest that was sent may be delivered any number of times anyway.
    A fetcher keeps itself alive and calls back until it completes, fails or is stopped, whether or not a pointer to it is kept.
  * ndn-cxx Scheduler: `EventId` converts to false once its callback has started; a cancelled or replaced scoped event
    does not fire.
  * ndn-cxx Face: `put` and `expressInterest` hand the packet to the I/O loop; no callback of PSync or of the application runs
    before they return.
  * ndn-cxx handles: destroying a ScopedRegisteredPrefixHandle removes the Interest filter that was set together with the
    registration; dropping a handle that is not scoped does not. Destroying a Scheduler cancels its events.
  * Default Interest lifetime 4000 ms; `appendVersion()` is the time in milliseconds.
  * C++: `double` is IEEE 754 binary64, rounded to nearest, without extended intermediate precision; where stated, `std::log` and
    `std::pow` have the special values of Annex F of the C standard.
  * C++: `int` has 32 bits, two's complement; `uint32_t`, `uint64_t` arithmetic wraps; signed overflow is undefined.
* Not covered: signatures and validation (the code accepts everything), memory exhaustion, threads (PSync is
  single-threaded), exceptions of the I/O layer, big-endian hosts.

## Properties, one by one

For each property: what is modelled and how it is proved, the status, the theorems, and what is missing.

### C01 — IBF content depends only on the net set of keys (proved)

If two IBFs of the same capacity receive insert/erase calls whose net effect per key is the same, in any order and interleaving, they compare equal and append the identical name component; in particular erase(k) after insert(k) restores the previous IBF.

*How:* IBF cells as a vector; insert and erase add or subtract a signed key in up to three cells. The content of a cell is a function of the multiset of signed keys (`Proofs/IbltSpec`), so two histories with the same net effect give the same vector. Overflow is excluded by an explicit bound on the number of calls (`c01_total`) and by hypothesis otherwise.

*Theorems:* `c01_net_effect`, `c01_total`, `c01_insert_erase`.
*Status:* All capacities, keys and histories; histories under 2^31 calls always stay in int32 range.

### C02 — IBF wire round trip (proved)

initialize() on the component produced by appendToName() of an IBF with the same capacity and compression scheme yields an equal IBF; a component whose decompressed length is not 12 bytes per cell is rejected with an exception and no other input is rejected.

*How:* The big-endian cell codec and the codec parameter. Byte-level round trip; acceptance is exactly "decompresses to 12 bytes per cell".

*Theorems:* `c02_round_trip`, `c02_accepts`, `c02_faithful`.
*Status:* Compression is any lossless codec; acceptance is characterised exactly.

### C03 — IBF difference is exact when it decodes (partial)

If two IBFs hold key sets L and R and lhs - rhs reports canDecode, then positive = L \ R and negative = R \ L.

*How:* The peeling loop of `operator-`. Invariant: the remaining table is the table of the remaining signed keys, so a cell that looks pure is pure unless the checksum collides. The refutation is a real 32-bit collision found offline and checked by the kernel.

*Theorems:* `c03_diff_exact_partial`, `c03_false`.
*Status:* False as stated: c03_false exhibits two sets whose difference decodes to a key neither holds. Partial: exact when the 32-bit checksum does not collide on the differing keys.

### C04 — A difference of one key always decodes (proved)

If two IBFs differ by exactly one key, lhs - rhs succeeds and reports exactly that key on the right side, no matter how many keys the two IBFs share (far beyond the expected count).

*How:* C03 with one differing key; the checksum hypothesis is discharged by injectivity of the key hash (C10).

*Theorems:* `c04_single_key`.
*Status:* No bound on the number of shared keys.

### C05 — When an IBF difference decodes (proved)

lhs - rhs reports canDecode exactly when the symmetric difference of the key sets contains no non-empty subset in which every cell touched is touched by at least two keys of the subset (no stopping set); otherwise it reports failure and every key it did report is a true difference on the correct side.

*How:* Peeling removes keys that are alone in a cell; it stops exactly at a non-empty stopping set. The specification defines stopping sets without the loop.

*Theorems:* `c05_decodes_iff`, `c05_total`, `c05_two_keys`.
*Status:* Iff with stopping sets, for sets without checksum collision (unconditional for up to two differing keys).

### C06 — IBF difference is antisymmetric (proved)

rhs - lhs gives the same canDecode as lhs - rhs with positive and negative swapped.

*How:* Simulation between the two runs under negation of all counts.

*Theorems:* `c06_antisymmetric`.
*Status:* Arbitrary cell contents; both differences must be defined (no int32 overflow).

### C07 — Processing a received IBF always terminates (partial)

For every IBF received in a sync Interest, computing the difference finishes.

*How:* A crafted cell looks pure for ever because peeling its key restores it. For honest IBFs the number of remaining keys decreases.

*Theorems:* `c07_terminates_partial`, `c07_false`.
*Status:* False: for every own set and capacity >= 3 there is a received component on which the peeling loop never ends. Partial: honest IBFs without checksum collision.

### C08 — Processing a received IBF never overflows a signed counter (partial)

For every IBF received in a sync Interest, computing the difference performs no signed integer overflow (undefined behaviour).

*How:* `c08_any_partial` holds for tables of any content: one pass moves a count by at most one per cell. Counts are checked at every addition in the model; refuted by a received count of -2^31; for honest IBFs counts are bounded by the number of keys.

*Theorems:* `c08_no_overflow_partial`, `c08_false`, `c08_overflow`, `c08_any_partial`.
*Status:* False: a received count of -2^31 overflows. Partial: honest IBFs. For tables of any content: counts that differ by 2^31 or more always overflow (c08_overflow), and nothing overflows in the first n passes if they differ by less than 2^31 - n * cells (c08_any_partial).

### C09 — Empty difference means equal IBFs (proved)

lhs - rhs reports canDecode with both sets empty if and only if lhs == rhs; so an Interest is parked as 'nothing new' only if its IBF is identical to ours.

*How:* No cell is pure in an all-zero table, and a table that decodes to nothing was zero.

*Theorems:* `c09_empty_iff_equal`, `c09_equal_decodes`.
*Status:* Arbitrary cell contents.

### C10 — The key hash is injective on 32-bit keys (proved)

For a fixed seed two different 32-bit keys never get the same hash, so the check value of a single-key cell identifies the key; the hash of a Name depends only on its wire bytes.

*How:* Composition of bijections on 32-bit words for 4-byte inputs; names: composition with the C++ byte order.

*Theorems:* `c10_murmur_injective`, `c10_check_identifies`, `c10_name_hash`.
*Status:* Bit-exact MurmurHash3.

### C11 — Sync/hello content round trip (proved)

Decoding the wire encoding of a State yields exactly the list of names that were added, in order, including after further names are added to an already encoded State.

*How:* State as content list plus cached wire; the cache invariant is that the wire is the encoding of the content.

*Theorems:* `c11_round_trip`.
*Status:* All interleavings of addContent and wireEncode, from a new or a received State.

### C12 — Sync/hello content decoding rejects everything else (proved)

wireDecode accepts a block only if its type is PSyncContent and its value is a sequence of well-formed Name elements; anything else raises an exception and no name is invented.

*How:* The accepted byte strings are described by a TLV grammar of their own (`Spec/Tlv`); soundness and completeness of the parser.

*Theorems:* `c12_decode_exact`, `c12_unambiguous`.
*Status:* Exact characterisation by an independent TLV grammar.

### C13 — Sequence number components (proved)

Appending a sequence number to a prefix and reading it back with toNumber gives the same number for every uint64; two different (prefix, seq) pairs never give the same name.

*How:* Case split over the four widths.

*Theorems:* `c13_read_back`, `c13_injective`, `c13_injective_wire`.
*Status:* All uint64.

### C14 — Bloom filter has no false negatives (proved)

After insert(p), contains(p) is true until clear() is called, whatever else is inserted before or after.

*How:* Bits are only set by insert; contains tests the bits insert sets.

*Theorems:* `c14_no_false_negative`, `c14_contains_iff`.
*Status:* Includes the exact membership condition.

### C15 — Bloom filter content depends only on the inserted set (proved)

Two filters with the same parameters into which the same set of names was inserted, in any order and with repetitions, compare equal; clear() makes a filter equal to a new one.

*How:* The table is the union of the bit sets of the inserted names.

*Theorems:* `c15_set_only`, `c15_clear`.

### C16 — Bloom filter survives the wire (proved)

The filter a producer rebuilds from the three components appended by the consumer answers contains() identically for every name, and a component of another size is rejected, whenever the transmitted probability stands for the same parameters.

*How:* Parameters are recomputed at the receiver; round trip if the oracle gives the same parameters for the transmitted probability.

*Theorems:* `c16_round_trip`, `c16_rejects`.
*Status:* Floating point is an oracle; the same-parameters condition is a hypothesis.

### C17 — Bloom filter access is memory safe for every received parameter set (partial)

Whatever element count, probability and table a peer puts in a sync Interest, the producer never reads outside the bit table.

*How:* `c17_false_zero` and `c17_false_large` refute the claim in IEEE arithmetic (Model/Ieee.lean) for every count with probability 0 and, with an empty table, for every probability of 1 or more. `c17_exact` gives the condition under which undefined behaviour happens, in both directions. Index bounds of the table; refuted with oracle values that IEEE arithmetic does produce (probability 1.000 gives size 0; probability 0 gives minus infinity).

*Theorems:* `c17_safe_partial`, `c17_exact`, `c17_false`, `c17_false_cast`, `c17_false_zero`, `c17_false_large`, `ieee_at_one`, `ieee_at_zero`.
*Status:* False: probability 1.000 or more with an empty table reads out of bounds or converts infinity; probability 0 converts -inf to unsigned (in IEEE arithmetic, for every count). Partial: computed size between 1 and 2^32-8 bits. c17_exact states exactly when it happens.

### C18 — Sequence numbers never go backwards (proved)

Between two points of any history in which a prefix is not removed, getSeqNo(prefix) does not decrease and the prefix does not disappear.

*How:* Invariant over all events of both producers; the comparison in updateSeqNo.

*Theorems:* `c18_full_monotone`, `c18_partial_monotone`.
*Status:* From any state, any events, both producers.

### C19 — publishName effect (proved)

publishName(p) on a registered prefix sets getSeqNo(p) to old+1, publishName(p, s) sets it to max(old, s); an unregistered prefix is ignored; no other prefix changes.

*How:* Case analysis of updateSeqNo with the invariants of the table (`Base.Inv`); the case of a wrapped number is included.

*Theorems:* `c19_full_publish`, `c19_partial_publish`, `c19_total`.
*Status:* Both producers, all reachable states; old+1 saturates at the largest uint64 (publication of a wrapped number is ignored by updateSeqNo).

### C20 — addUserNode / removeUserNode effect (proved)

addUserNode returns true exactly if the prefix was unknown and then makes it known with sequence number 0; removeUserNode makes it unknown; other prefixes are unaffected and both are idempotent.

*How:* Association list lemmas.

*Theorems:* `c20_add`, `c20_remove`, `c20_calls`.
*Status:* Both producers.

### C21 — The IBF holds exactly the latest publications (partial)

At all times the producer's IBF equals a fresh IBF into which hash(prefix/seq) was inserted once for each known prefix with non-zero sequence number.

*How:* The history of the table records which publications were current at each update; without a hash collision among names current at the same time the bimap is exact and the IBF is the one of the current names. Refutation: two names with equal MurmurHash3.

*Theorems:* `c21_ibf_exact_partial`, `c21_false`.
*Status:* False: c21_false publishes two names with equal 32-bit hash and ends with a stale key in the IBF. Partial: exact when publications current at the same time never collide.

### C22 — Same data set, same IBF (partial)

Two producers with the same capacity and the same prefix->seq state (zero entries ignored) have equal IBFs, hence exchange no data, whatever histories led there.

*How:* Corollary of C21 and C01.

*Theorems:* `c22_same_ibf_partial`, `c22_false`.
*Status:* False with a hash collision in the history (c22_false). Partial: collision-free histories of either producer kind.

### C23 — Cumulative element count (proved)

The number carried after the IBF in a full-sync Interest equals, modulo 2^64, the sum of all current sequence numbers plus the sequence numbers held by prefixes at the time they were removed.

*How:* `numOwn` counts insertions; every Interest in the log carries the value and IBF of a moment of the history.

*Theorems:* `c23_cumulative_count`, `c23_current`, `c23_ibf_partial`.
*Status:* Every Interest in the log of a reachable node. c23_ibf_partial (additional): without collisions the IBF is that of the same moment.

### C24 — Full-sync reply soundness (partial)

Every name in a reply to a sync Interest is prefix/seq with seq equal to the producer's current non-zero sequence number of that prefix, for every received Interest, honest or crafted.

*How:* Generated content is looked up in the current table. Replies from the store: the history of sent packets (`Proofs/MicroLog`).

*Theorems:* `c24_false`, `c24_reply_current_partial`, `c24_history_partial`.
*Status:* False as stated: a reply served from the segment store within its freshness period can name an older publication (c24_false). Proved: every freshly generated reply names only current publications, for any Interest; every Data ever sent names only numbers that had been reached.

### C25 — Full-sync reply completeness (partial)

When a node answers an honest sync Interest, a requester that processes the reply ends with every sequence number at least as high as the responder's, for every prefix.

*How:* C03/C05 applied to the two tables, C21 to translate hashes to names; when the difference does not decode, the reply is the entire table or the Interest waits.

*Theorems:* `c25_false`, `c25_reply_complete_partial`.
*Status:* False as stated for stored replies (c25_false). Proved for generated replies without hash or checksum collision, decodable or not; no reply to a decodable Interest means nothing was missing.

### C26 — Receiving sync Data merges by maximum (proved)

After sync Data is processed, getSeqNo of each prefix is the maximum of its old value and the values in the Data; prefixes not in the Data are unchanged.

*How:* Induction over the names in the content; the table after the loop is the pointwise maximum.

*Theorems:* `c26_merge_max`.
*Status:* All states, all contents, repeated prefixes, calls from inside the callback.

### C27 — Each remote sequence number is notified exactly once (proved)

Over any history, the ranges [lowSeq, highSeq] passed to the update callback for a prefix, together with local publications, tile 1..getSeqNo(prefix) without gap or overlap.

*How:* The ranges in the log, per prefix, tile an interval (`Proofs/Tiling`); invariant over all events.

*Theorems:* `c27_ranges_tile`, `c27_remote_prefix`, `c27_exactly_once`.
*Status:* All runs. Quirk covered by the statement: an unknown prefix announced with number 0 is reported as the empty range [1,0].

### C28 — Delivery order and duplication do not matter (partial)

Processing the same collection of sync Data in any order, with any repetition, ends in the same prefix->seq map and equal IBFs.

*How:* Corollary of C26 for permutations and repetitions.

*Theorems:* `c28_same_numbers`, `c28_same_ibf_partial`, `c28_false`.
*Status:* The prefix->seq map part is proved without restriction. Equality of the IBFs is false with a 32-bit hash collision (c28_false) and proved without.

### C29 — publishName answers every parked Interest once (partial)

publishName on a registered full-sync prefix sends for every parked Interest one Data that contains the published name, and no parked Interest remains.

*How:* Induction over the parked list; each iteration sends the first packet of a reply for that name. `c29_exact` drops the condition on names: the packet with the number in the last component is sent, or none if the reply is shorter.

*Theorems:* `c29_answers_all_partial`, `c29_false`, `c29_exact`.
*Status:* False as stated: a crafted Interest whose name ends in a segment component is dropped without Data (c29_false). Proved for all other parked names, any number of them. c29_exact states for all names which packet each parked Interest gets.

### C30 — Parked full-sync Interests expire (partial)

A parked sync Interest is dropped at most one Interest lifetime after it was last received, a repeated Interest renews it, and it is never answered after that.

*How:* Each parked entry has a deadline; provenance of the deadline (received, or retried from the waiting list).

*Theorems:* `c30_expires_partial`, `c30_renewed`, `c30_only_alive_answered`, `c30_false`.
*Status:* False as stated: an Interest that waited for news is parked with the default lifetime of 4 s instead of its own (c30_false). Partial: received within its lifetime, or retried at most 4 s ago. Renewal and the absence of late answers are proved. Timers may be late by up to cfg.lag, any number; time bounds include it.

### C31 — The retry list is bounded in time (proved)

A delayed Interest that stays ahead of us is retried at most twice before it is dropped, and no Interest is ever retried more than 65535 times.

*How:* Each waiting entry has a counter; at most two retries, each bound to a timer.

*Theorems:* `c31_bounded`, `c31_at_most_twice`.
*Status:* All runs. Ahead means: no packet for the Interest in memory, not parked, and the difference shows only data we miss (or does not decode and the Interest reports more publications).

### C32 — A full-sync node never goes silent (proved)

At every moment a live full-sync node has a sync Interest transmission scheduled, due within the larger of lifetime/2 and data freshness plus the maximum jitter.

*How:* Invariant `Alive`: a sync timer is scheduled in every reachable state; when it fires, nothing in sendSyncInterest can fail.

*Theorems:* `c32_scheduled`, `c32_transmits`.
*Status:* For every reachable state of a well-formed configuration; the due timer sends the current Interest and cannot fail. Timers may be late by up to cfg.lag, any number; time bounds include it.

### C33 — Decode failure cannot deadlock two nodes (proved)

If the IBFs of two nodes cannot be decoded against each other, at least one of the two, on receiving the other's sync Interest, answers at once: with a stored reply to that Interest or with its complete state.

*How:* Comparison of the two counters of cumulative publications; the node that has published at least as many answers.

*Theorems:* `c33_no_deadlock`.
*Status:* All pairs of reachable states without removals; both differences must be defined (terminating, no int32 overflow).

### C34 — Malformed Interests are harmless (partial)

No received Interest makes a producer raise an exception out of its Interest handler.

*How:* Every branch of the Interest handlers, including exceptions in TLV parsing, IBF decompression, and toNumber. `c34_full_exact`: the exception is raised if and only if the store has no answer, two components follow the sync prefix, and the last is no number of 1, 2, 4 or 8 bytes.

*Theorems:* `c34_partial_producer`, `c34_full_partial`, `c34_full_exact`, `c34_false`.
*Status:* False for full sync: a last name component of 3 bytes makes toNumber throw out of the handler (c34_false). Proved for partial sync (sync and hello, every Interest) and for full sync when the component read as a number has 1, 2, 4 or 8 bytes; c34_full_exact states exactly which Interests raise the exception.

### C35 — Malformed Data is harmless (partial)

No received sync or hello Data content makes the receiver raise an exception out of its Data handler or access memory out of bounds.

*How:* Every branch of the Data handlers; exact description of the contents a consumer survives, and of those a full-sync node survives that owes nobody an answer (`c35_full_exact`).

*Theorems:* `c35_hello_exact`, `c35_sync_exact`, `c35_honest_proper`, `c35_full_partial`, `c35_full_total`, `c35_full_exact`, `c35_witnesses`, `c35_false`.
*Status:* The claim is false (witnesses for both receivers). Proved: exactly which contents a consumer survives, exactly which contents a full producer survives for whose answer nobody waits, that producers only send such contents, and that a full producer raises no exception on contents whose names end in numbers.

### C36 — An application nack satisfies the Interest it answers (partial)

The nack Data sent in response to an Interest has a name that the Interest name is a prefix of.

*How:* The nack name is Interest name plus version plus segment; whether it is under the Interest name depends on its form.

*Theorems:* `c36_nack_matches_partial`, `c36_full_never`, `c36_false`.
*Status:* False for full sync: a nack never satisfies the Interest (c36_full_never), witness c36_false. Proved for partial sync with the Interest form of the consumer.

### C37 — Announcements are never stale (partial)

A Data packet sent in response to publishName never carries a sequence number below the producer's current one, and never a zero one.

*How:* The content of satisfyPendingInterests contains the argument of publishName. `c37_exact`: everything else in it is current, and the argument is current iff its number is not 0 and not below the old one.

*Theorems:* `c37_full_partial`, `c39_publish_current`, `c37_false`, `c37_exact`.
*Status:* False: publishName with a number not above the current one changes nothing but announces it to parked Interests (c37_false). Proved for publications that raise the number, and for partial sync (always the current number). c37_exact states exactly what is announced and when it is stale.

### C38 — A sync Interest attempt leaves an Interest outstanding (partial)

After a full-sync node tries to send a sync Interest outside the no-new-data wait, an Interest carrying its current IBF is outstanding.

*How:* Case analysis of sendSyncInterest with the 100 ms guard; `c38_exact` is an equivalence.

*Theorems:* `c38_attempt_partial`, `c38_after_reply`, `c38_false`, `c38_event`, `c38_exact`.
*Status:* False as stated: an attempt within 100 ms of the same Interest cancels the outstanding one and sends none (witness). Proved for all other attempts. c38_exact states exactly when an Interest is left outstanding and what happens otherwise.

### C39 — Partial-sync reply soundness (partial)

Every name in a partial-sync reply is prefix/seq with the producer's current sequence number, and its prefix passes the requester's Bloom filter.

*How:* Generated content is looked up in the current table; the history of all packets sent (`c39_history`) covers stored replies.

*Theorems:* `c39_reply_sound_partial`, `c39_publish_current`, `c39_history`, `c39_false`.
*Status:* False for replies taken from the segment store (witness c39_false). Proved for all other answers to Interests and for all answers made by publishName.

### C40 — Partial-sync reply completeness (proved)

When a producer compares an honest sync Interest (one it does not answer from the segment store) and the difference decodes, the reply names exactly the subscribed prefixes whose current publication is not in the requester's IBF; it is sent at once if there are any or the difference has reached half of ibfCount, and otherwise the Interest is parked and nothing is sent.

*How:* As C25, with the filter.

*Theorems:* `c40_reply_complete`.
*Status:* The reply consists of exactly the missing subscribed publications, for Interests carrying the IBF of any reachable state without hash collisions.

### C41 — Partial-sync nack condition (proved)

A producer sends an application nack to a well-formed sync Interest exactly if the IBF difference does not decode; the nack carries the current IBF and leaves the producer unchanged.

*How:* Case analysis.

*Theorems:* `c41_nack_condition`.
*Status:* All states and all well-formed Interests.

### C42 — Partial-sync publication wakes subscribers (proved)

publishName answers every parked Interest whose filter contains the prefix with its current sequence number and the new IBF, answers with empty content if the difference reached the threshold, drops those whose IBF difference does not decode, and leaves all others parked.

*How:* `Served` describes, entry by entry, what happens to a parked Interest; induction over the list.

*Theorems:* `c42_publish_serves`, `c39_publish_current`.
*Status:* Served treats any number of parked Interests one by one.

### C43 — Parked partial-sync Interests expire (partial)

A parked partial-sync Interest is dropped at most one Interest lifetime after it was last received.

*How:* As C30; refuted with the form of name that the timer does not erase.

*Theorems:* `c43_expires_partial`, `c43_false`.
*Status:* False for Interests with version and segment number: their entry never expires (witness c43_false). Proved for names that were only received in the plain form. Timers may be late by up to cfg.lag, any number; time bounds include it.

### C44 — Hello reply lists everything (proved)

A hello Interest not answered from memory is answered with exactly the list of all registered prefixes with their current sequence numbers and the current IBF in the name.

*How:* Case analysis; content is the encoding of the whole table with number 0 included.

*Theorems:* `c44_hello_reply`, `c44_other_ignored`.
*Status:* All states and hello Interests.

### C45 — A subscriber never misses an update (partial)

In any run of a producer and a consumer, with Interests and Data lost, delayed, duplicated or answered from caches, whenever the consumer has processed a reply carrying an IBF of the producer, its sequence number for each subscribed prefix is at least the producer's at the moment that IBF was current.

*How:* Producer and consumer over a network. Invariant: what the consumer does not know yet is missing from the IBF it sends (`Proofs/PubSub`); completion of a fetch ties the content to a reply of the producer (`Proofs/PubSubFetch`).

*Theorems:* `c45_up_to_date_partial`, `c45_up_to_date_many_partial`, `c45_false`, `c45_false_stale`.
*Status:* False as stated: a subscription added while a sync Interest is pending, or added with a number below the one in the hello reply, is never brought up to date (c45_false, c45_false_stale). Proved for applications that add subscriptions while no sync Interest is pending and with current numbers, for all runs with loss, delay, duplication, reordering and caching, without hash collisions among published names.

### C46 — Consumer notifications are monotone and gap free (proved)

The ranges passed to the update callback for a prefix start right after the consumer's previous sequence number for it and end at the new one; the consumer's sequence number of a subscribed prefix never decreases.

*How:* Tiling of ranges as in C27, on the consumer log.

*Theorems:* `c46_ranges`, `c46_ranges_new`, `c46_sync_merge`, `c46_hello_merge`.
*Status:* Ranges notified tile; numbers never decrease and follow the largest announcement, in any reachable execution.

### C47 — Subscription API (partial)

addSubscription(p) succeeds exactly if p is not subscribed, removeSubscription(p) succeeds exactly if p is subscribed, and isSubscribed reflects the last successful call.

*How:* Case analysis; history of calls.

*Theorems:* `c47_add_partial`, `c47_remove`, `c47_reflects`, `c47_false`.
*Status:* The claim is false: a late sync Data after removeSubscription leaves a number behind and the next addSubscription is refused (c47_false). Proved: addSubscription exactly when no number is recorded, removeSubscription exactly, isSubscribed reflects the calls.

### C48 — Only subscribed prefixes are notified (partial)

The update callback is only called for prefixes that are subscribed at that moment.

*How:* Provenance of each reported range.

*Theorems:* `c48_origin_partial`, `c48_false`, `c48_false_hello`.
*Status:* The claim is false: prefixes can be reported after unsubscribing. Proved: what sync Data causes to be reported is announced in that Data with a larger number, and hello Data only reports subscribed prefixes.

### C49 — The transmitted filter is the subscription list (proved)

The Bloom filter put in a sync Interest equals a fresh filter containing exactly the current subscription list, after any history of subscribing and unsubscribing.

*How:* The log contains, for each sync Interest, the filter of the subscriptions at that moment; C15 for independence of order.

*Theorems:* `c49_filter`, `c49_filter_current`.
*Status:* Every Interest is the hello Interest or carries the filter of the subscriptions at the moment of sending.

### C50 — stop() stops the consumer (partial)

After stop() returns to the application's event loop no Interest is sent and no callback is invoked until the application calls the consumer again.

*How:* After stop there is no timer and no fetcher, and no event but an API call changes that.

*Theorems:* `c50_stop`, `c50_stop_in_hello`, `c50_false`.
*Status:* stop() from the event loop or last in the hello callback silences the consumer for good; false for stop() in the update callback of a sync reply.

### C51 — Application nack makes the consumer say hello (partial)

On a sync nack the consumer sends a hello Interest, does not change its sequence numbers or subscriptions, and does not misread later sync Data as a nack.

*How:* Case analysis of onSyncData/content type; fetch discipline for the later Data.

*Theorems:* `c51_nack`, `c51_later_partial`, `c51_completed`, `c51_false`.
*Status:* One hello Interest per nack and nothing else changes; later Data with a FinalBlockId is never misread, nor any later Data once the fetch of the nack has completed; false for Data without FinalBlockId after an incomplete nack.

### C52 — Producer and consumer agree on the sync Interest format (partial)

A sync Interest built by a consumer from an IBF it got from a producer of the same capacity is accepted by that producer and decoded to the same filter and IBF.

*How:* Composition of C16, C02 and the name format. The exact condition (`c52_exact`) and its other side (`c52_unserved`: a consumer whose table has another size than the producer computes is never served) in Props/WireExact.lean, from the names that can be in the store of a producer.

*Theorems:* `c52_format_partial`, `c52_exact`, `c52_unserved`, `c52_ibf_hello`, `c52_ibf_sync`, `c52_false`, `c87_interest`.
*Status:* Holds for probabilities that survive the transmission in thousandths (C87: all literals of whole thousandths); false otherwise (witness 0.0019). For every probability: the producer can read the Interest exactly if the filter it computes has as many bytes as the consumer's; if not, it never answers or keeps any sync Interest of this consumer.

### C53 — Segmentation is lossless (proved)

The segments published for a buffer concatenate to it, have at most half the maximum packet size of content, are numbered 0..n-1, and there is at least one.

*How:* `List` lemmas on chunks of the buffer.

*Theorems:* `c53_segmentation`, `c53_count`.
*Status:* All buffers.

### C54 — Only requested segments are put on the face (proved)

publish() sends at most one Data: the segment the Interest asked for (segment 0 if none), or nothing if it does not exist.

*How:* Case analysis of `publish`.

*Theorems:* `c54_requested_segment`, `c54_total`.

### C55 — The segment store is sound and bounded (proved)

replyFromStore sends only Data that was published, whose name extends the Interest name, and that has not expired or been evicted; the store never exceeds its limit and keeps the most recent packets.

*How:* FIFO store with expiry; invariant over all histories.

*Theorems:* `c55_store_sound`, `c55_keeps_recent`, `c55_expiry`.
*Status:* All histories of publish, expiry and lookup.

### C56 — A sync group never invents data (partial)

In a group of any number of honest full-sync nodes over a network that loses, duplicates, delays and reorders, no node ever holds or reports a sequence number of a prefix larger than the largest one published for that prefix by some node.

*How:* Group model. Invariant by micro-steps: every number in a table, a reply or a notification was published by some node (`Sourced`). Reassembly of segments of one version gives back one reply.

*Theorems:* `c56_no_invention_partial`, `c56_publisher`, `c56_false`.
*Status:* False as stated: c56_false gives a run in which two nodes answer one Interest in the same millisecond with two-segment replies and the receiver assembles a sequence number nobody published. Proved for every group size and schedule in which no two replies carry the same version. c56_publisher ties published to calls of publishName.

### C57 — A sync group converges (partial)

If publications stop and every ordered pair of nodes along a spanning set completes an exchange, all nodes hold the same prefix->seq map: the pointwise maximum.

*How:* Pointwise maximum as a join; an exchange that is answered freshly makes the receiver at least as large as the answering node; induction over the exchanges.

*Theorems:* `c57_converge_partial`, `c57_sample`, `c57_false`.
*Status:* False as stated: c57_false is an exchange answered from the segment store with an outdated reply. Proved for every group size and every order of exchanges that are answered freshly, without removals, hash collisions or equal versions.

### C58 — A parked Interest is owed nothing (partial)

While a sync Interest is parked at a producer, the producer has no current publication (of a prefix that passes the Interest's filter, in partial sync) that is missing from the Interest's IBF.

*How:* For partial sync an invariant on parked entries (`ParkedIdle`) against all earlier tables of the producer; for full sync parked names carry the current IBF as long as no Data changes the table.

*Theorems:* `c58_partial_producer`, `c58_full_partial`, `c58_false`.
*Status:* Proved for PartialProducer; for FullProducer it is false (c58_false: Data with news arrives while an Interest is parked, onSyncData does not satisfy it), and true as long as the IBF changes only by own publications (c58_full_partial)

### C59 — A consumer never goes silent (proved)

Once a consumer has sent a hello Interest, and as long as the application calls sendSyncInterest in every hello callback and never calls stop, at any moment an Interest is outstanding or a timer runs that will send one, whatever Data, nacks, timeouts and errors occur; a due timer does send one.

*How:* Invariant over all events; a nack is tied to the hello Interest it causes through the window of one sync fetch.

*Theorems:* `c59_never_silent`, `c59_timer_sends`, `c59_needs_callback`.
*Status:* All runs whose sync fetches complete only after a packet with FinalBlockId (ndn-cxx SegmentFetcher). c59_needs_callback: the condition on the hello callback cannot be dropped.

### C60 — Honest traffic never makes a node fail (proved)

In a group of full-sync nodes with the same parameters, as long as the Interests a node receives are sync Interests or segment Interests of nodes of the group, fetches complete with packets that nodes of the group have sent, and no two of the published names collide in their 32-bit hashes, no event makes a node throw, access memory out of bounds, fail an assertion or loop for ever.

*How:* Invariant over group runs: every table, parked IBF and waiting Interest holds only keys of published names (`Safe`), so every IBF subtraction can be peeled without a checksum collision (C05) and every name in a reply ends in a number; each handler is then shown to return. Interests are traced back to an earlier table of their sender.

*Theorems:* `c60_never_fails`.
*Status:* Hypotheses: same parameters, lossless codecs, distinct reply versions, replies and names that fit in packets, no hash or checksum collision among the published names (numbers in P). Strangers' packets can make a node fail: C34, C35.

### C61 — Honest traffic never makes a partial-sync producer or its consumers fail (proved)

A partial-sync producer and any number of consumers with matching parameters: as long as the Interests the producer receives are those of consumers (or ask for another segment of a reply), fetches of consumers complete with packets the producer has sent, no two of the published names collide in their 32-bit hashes, and no application calls sendSyncInterest before its first hello callback, no event makes the producer or a consumer throw, access memory out of bounds, fail an assertion or loop for ever.  Calling sendSyncInterest before the first hello callback always fails the assertion.

*How:* Each consumer together with the producer is a run of two (`MRun.view`: events at other consumers look like the passing of no time), so the lemmas of C45 on what a fetch delivers apply. Consumer invariant: it has sent only Interests with a usable filter and the IBF of a former table of the producer, and holds such an IBF whenever something may ask with it. Producer invariant: its table and all parked IBFs hold only keys of published names, and parked filters are usable. Each handler is then shown to return.

*Theorems:* `c61_never_fails`, `c61_needs_hello`.
*Status:* Hypotheses: matching parameters, lossless IBF codec, replies and names that fit in packets, distinct versions of different replies, no hash or checksum collision among the published names (numbers in K), fuel of the peeling loop above the number of differences. Crafted packets can make both sides fail: C34, C35, C36, C43.

### C62 — The example consumer subscribes as it was asked (partial)

After a hello reply the example consumer application is subscribed to as many of the listed prefixes as it was asked to subscribe to, each subscription starting from the number listed, and to nothing else.

*How:* The example application is a state machine around the consumer of the model: the hello callback becomes the list of calls the application makes in it. Proved for the first hello reply; false for a second one (a nack makes the consumer say hello again, and the callback subscribes again), and with fewer prefixes than asked for the loop reads beyond the end of the vector. For every hello callback, the first or a later one (`c62_every_hello_partial`): the subscriptions afterwards are the earlier ones and those picked that had no number; no other event changes them (`c62_only_hello`), so there are at most as many as asked for times the number of hello callbacks (`c62_at_most`).

*Theorems:* `c62_subscribes_partial`, `c62_every_hello_partial`, `c62_only_hello`, `c62_at_most`, `c62_false`, `c62_out_of_bounds`.
*Status:* false as stated: a second hello reply (after a nack) adds further subscriptions, and a hello with fewer prefixes than asked for is an out-of-bounds read; proved for the first hello reply of any run; for later ones exactly what they add, and the resulting bound

### C63 — The example consumer prints every number once and in order (proved)

The numbers the example consumer has printed for a prefix are consecutive and increasing, each printed once, and end with the number the consumer holds for the prefix; for a prefix it holds no number for it has printed none.

*How:* The ranges reported for a prefix tile (C46); the printing loop is a fuelled loop shown to print exactly its range.

*Theorems:* `c63_prints_consecutive`.
*Status:* all histories of the example consumer

### C64 — The update callbacks of the examples return (partial)

Whatever updates are reported, the callbacks of the example applications print the reported range and return.

*How:* The loop counter is a uint64_t; the loop ends iff the range does not end at 2^64-1. The fuel suffices for all other ranges, and with the end 2^64-1 the loop condition holds for every value of the counter, so that no fuel suffices.

*Theorems:* `c64_consumer_partial`, `c64_full_partial`, `c64_consumer_hangs`, `c64_full_hangs`, `c64_false`.
*Status:* false as stated: the loop never ends for a range up to 2^64-1; proved for all other ranges

### C65 — The example producers publish each stream as often as asked (partial)

When no update of a stream is scheduled any more, the numbers the example producer has published for it are 1, 2, ..., max-num-publish; until then exactly one update is scheduled; a scheduled update does not throw when it reads back the number.

*How:* Invariant per stream of the number, the published numbers and the scheduled updates, over all interleavings with network events.

*Theorems:* `c65_part_partial`, `c65_full_partial`, `c65_part_value`, `c65_full_value`, `c65_zero`, `c65_full_false`.
*Status:* false as stated for the limit 0 (one publication) and, in full sync, for a node whose old numbers the group remembers; proved for partial sync with a limit of at least 1; for full sync the bounds on number and order of publications (and the full claim inside a group whose streams are its own: C80, c80_own)

### C66 — Rounds of sync Interests bring all nodes up to date even if differences do not decode (partial)

If nobody publishes any more, and then there are more rounds in which every node sends a sync Interest that every other node receives and whose answer, if any, arrives, than there are publications some node has not heard of, then all nodes hold for every prefix the largest number any of them held - whether or not the differences between their tables can be decoded.

*How:* In a round in which no number changes, two nodes that both stay silent on an undecodable difference would each have to claim the larger sum of numbers, or see only names of the other side; the second excludes itself by antisymmetry of the difference (C06).  The publications not heard of decrease strictly in every other round.

*Theorems:* `c66_rounds_partial`, `c66_false`, `c66_sample`.
*Status:* False if a reply that was already stored when a round began is used again (c66_false); proved for rounds at whose start the asked node stores no reply to the Interest, without removals, collisions and equal versions.

### C67 — After a reply without news a full-sync node waits until the reply is stale (proved)

When a fetch completes with a reply that can be decoded and the application is not notified of any update, then as long as the application publishes nothing the node sends no sync Interest for at least syncReplyFreshness + 100 ms, and it has sent one when more than syncReplyFreshness + 500 ms have passed.

*How:* An invariant of the waiting node (flag set, timer not yet due, fetcher idle) is kept by every event but the timer and a publication; the timer is never overdue (C32).

*Theorems:* `c67_wait_out`.
*Status:* Timers may be late by up to cfg.lag, any number; time bounds include it.

### C68 — With clocks that agree, rounds of sync Interests bring all nodes up to date whatever the stores hold (partial)

If nobody publishes any more, and then there are more rounds than twice the number of publications some node has not heard of, plus one, then all nodes hold for every prefix the largest number any of them held - even if nodes answer from their segment stores with replies made before the last publications, and whether or not the differences between the tables decode.

*How:* A node that fetched an old reply waits longer (C67) than the reply can stay in the store of its sender (invariant on the erasure timers), so its next Interest is answered from the table; then C66 applies to every second round.

*Theorems:* `c68_timed_partial`, `c68_sample`, `c68_false`.
*Status:* False if nodes use different values of syncReplyFreshness (c68_false); proved for equal values, without publications of number 0, removals, collisions and equal versions. Timers may be late: 2*(clock difference) + lag < 90 ms.

### C69 — A full-sync node asks again in time (proved)

After a fetch that fails with anything but a timeout, and after a reply that brings updates, a node has sent a sync Interest when more than 500 ms have passed.  In any stretch of time longer than lifetime/2 + syncReplyFreshness + 1000 ms it sends a sync Interest.

*How:* Every event is split into small steps on the timing state (Proofs/Acts.lean).  As long as no Interest is sent and no fetch goes on, the timer is not moved, and it is never overdue (C32); a fetch ends at most once before that.

*Theorems:* `c69_retry`, `c69_renew`, `c69_pace`.
*Status:* Timers may be late by up to cfg.lag, any number; time bounds include it.

### C70 — A full-sync node does not repeat a sync Interest within 100 ms (proved)

A node does not send two sync Interests of the same name, with no other sync Interest between them, within less than 100 ms, unless it has sent Data under that name in between.

*How:* Invariant over the small steps: the last Interest since the start is remembered with its time, or Data was sent under its name.

*Theorems:* `c70_spacing`.

### C71 — A waiting subscriber misses nothing, a late one is answered at once (proved)

A consumer and a partial-sync producer that exchange Interests and Data (in any order, with losses): while the consumer's last sync Interest waits at the producer, the consumer has the producer's current number for every prefix it is subscribed to.  If that Interest arrives while some number is missing and no stored reply answers it, the producer answers it at once, with one packet named after its current IBF or a nack.  After the consumer has processed a reply it has all numbers of the state whose IBF is in the name of the packet.  (The application subscribes with numbers that are not ahead of the IBF the consumer holds, and hash collisions are excluded, as in C45.)

*How:* From the invariants of C45 (the table the consumer holds is one of the producer's; the flying Interest carries it and a filter accepting the subscribed prefixes; a parked Interest misses nothing it subscribed to), extended with the name of the packet that was delivered.

*Theorems:* `c71_waiting`, `c71_asking`, `c71_reply`, `c71_hello`.
*Status:* waiting consumer is up to date; a late one is answered at once unless from the store; processed replies bring the state named in the packet

### C72 — A parked sync Interest is kept for its lifetime (partial)

A sync Interest that a producer parks stays parked until its lifetime is over, unless the producer sends Data for it (or it is received again, which starts its time anew).  In partial sync it may also be dropped when a publication makes the difference to its IBF undecodable.

*How:* An entry is found with a timer not before the end of its lifetime; every event keeps that, or sends Data under the name, or is one of the exceptions (Proofs/Kept.lean for full sync; C42 for a publication in partial sync).

*Theorems:* `c72_false`, `c72_full_partial`, `c72_partial_producer`.
*Status:* False for full sync: a parked Interest with the name of the node's own outstanding one is dropped when a reply to the latter arrives.  Proved without that case, for min(lifetime, 4000 ms) (a retry parks for 4000 ms) and names not ending in a segment number.  Partial sync: proved for names not ending in a segment number.

### C73 — Delayed Interests are retried in time (proved)

While a full-sync node delays an Interest it retries it at least once in every 500 ms.  An Interest that stays ahead of the node is delayed for at most 1000 ms, and none for more than 32767.5 s.

*How:* Invariant over all events: the timer of the waiting list is set, to at most 500 ms ahead, whenever the list is not empty; it is not moved while it is set (Proofs/Retry.lean).  With the counts of C31.

*Theorems:* `c73_retried`, `c73_ahead`, `c73_never_forever`.
*Status:* assumes jitter within its bounds (WF). Timers may be late by up to cfg.lag, any number; time bounds include it.

### C74 — What a producer sends is never older than its freshness (proved)

Every Data sent by a full-sync node, also one found in its segment store, is an application nack or a segment of a reply that the node made at most max(syncReplyFreshness, 10 ms) before, listing numbers that were current (or, for a name being published, not above the current number) at that time.  The same holds for a partial-sync producer with max(syncReplyFreshness, helloReplyFreshness); its hello replies list the whole table of that time.  When no reply was made for longer than that, nothing is answered from the store.

*How:* Every stored packet has an erasure timer set when its reply was made (Proofs/StoreTime.lean, Proofs/Stale.lean): packet and timer disappear together, and time does not pass a deadline. The reply itself is that of C24/C39 in the state where it was made.

*Theorems:* `c74_full`, `c74_full_empties`, `c74_partial_producer`, `c74_partial_producer_empties`.
*Status:* the version of a reply is arbitrary; names of replies made by publications are bounded by the number at that moment. Timers may be late by up to cfg.lag, any number; time bounds include it.

### C75 — A subscriber is told only what was published (proved)

In any exchange between a partial-sync producer and a consumer (Data lost, delayed, repeated, reordered or cached, but none forged): every number the hello callback offers was the producer's at some earlier moment; every highest number the update callback reports, and every number getSeqNo returns, was published by a call of publishName before, or was given by the application itself when it subscribed.  If the producer does not remove the prefix, the consumer is never ahead of it.

*How:* Every IBF the consumer holds and every sync Interest it sends comes from a table of the producer (the invariant of C61, here without its assumptions on Interests); so a completed fetch delivers a reply of a table, and reading it adds only numbers of that table (Proofs/Told.lean). A nonzero number of a table goes back to a publishName event.

*Theorems:* `c75_offered`, `c75_notified`, `c75_known`, `c75_not_ahead`.
*Status:* all applications; as in C45 without hash collisions among published names, with matching parameters, and packets not forged

### C76 — The example consumer prints everything that is published (proved)

The example consumer run with a partial-sync producer: while its last sync Interest waits at the producer, it has printed, for every prefix it is subscribed to (and that the producer has not removed), consecutive numbers, each once, the last being the producer's current number; since any earlier moment it has printed exactly the numbers published since.  It never prints up to a number that was not published.

*How:* The example consumer does at most one thing at a time - a fetch or a timer - except between an application nack and the completion of that fetch (Proofs/ExampleRun.lean, `Chain`); so it subscribes only while no sync Interest is pending, with the numbers of the IBF it holds, which is the condition of C45 (`careful`). C71 and C75 then pin its number to the producer's, C46/C63 the printed lines to its number.

*Theorems:* `c76_prints_all`, `c76_prints_at_least`, `c76_up_to_date`, `c76_published`.
*Status:* as C75; an application nack completes its fetch in the event handler that receives it (NackAtOnce), as SegmentFetcher does for one-packet Data

### C77 — What becomes of a partial-sync Interest (proved)

A well-formed sync Interest that is not answered from the segment store is nacked if the IBF difference does not decode (and nothing else changes); answered at once, with the publications in the difference whose prefix passes the filter, if there are any or the difference has reached half of ibfCount; and otherwise parked, with its own filter and IBF and until its lifetime is over, and nothing is sent.  In each case nothing else is parked or dropped.

*How:* Case analysis of the handler, with the invariant that a parked entry holds the filter and IBF its name carries.

*Theorems:* `c77_arrival`.

### C78 — What becomes of a full-sync Interest (proved)

A well-formed sync Interest that is not answered from the segment store.  If the IBF difference decodes, it is parked until its lifetime is over if there is no difference; it is delayed if the requester has publications the node lacks and lacks none; otherwise it is answered at once, with the publications the requester lacks except those of which it has the very next number, and ignored if none are left.  If it does not decode, it is delayed if it reports more publications than the node has, ignored if it reports as many and only publications that the node lacks were found, and otherwise answered with everything the node has, with a freshness of 10 ms.  Nothing else is sent, except a new sync Interest if the one answered has the name of the node's own.

*How:* Case analysis of the handler; for the Interest of another node the decoded difference is that of the publications (C03), and hashes are injective on the names compared.

*Theorems:* `c78_arrival`, `c78_honest`.

### C79 — Every segment of a reply can be fetched while it is fresh (proved)

A reply published by a producer (to a hello or sync Interest, or when a publication answers waiting Interests) stays available, whatever happens afterwards: until its freshness is over, and as long as no more than imsLimit packets were published from it on and no other reply has the same or a shorter name with version, an Interest for any of its segments is answered with exactly that segment and nothing else happens.

*How:* Handlers as sequences of small actions with the clock (Proofs/Micro.lean); the packets of the reply keep a bounded number of newer packets behind them in the FIFO store, and every timer for their names is due at the end of the freshness or later (Proofs/Fetchable.lean). The condition on names holds when versions (time stamps) of replies with the same name differ.

*Theorems:* `c79_full`, `c79_partial_sync`.
*Status:* also that the stored segments are found under their own names

### C80 — A group of full-sync example programs prints everything (proved)

Full-sync example programs, each with its own streams, over a network that may lose, delay, repeat, reorder and cache packets but forges none.  At any moment: what a program has published for a stream is 1, 2, ..., k without a gap, with exactly one more update scheduled while k is below the limit and none when k is the limit; what another program has printed for the stream is an initial piece of that; nothing is printed for a program's own streams or for names that are nobody's stream.  When nothing is scheduled any more and exchanges as in C57 have carried what each program knew to every other one, every program has printed 1, 2, ..., limit for every stream of the others.

*How:* A run of the programs is, after the constructors, event for event a run of the producers (Proofs/AppGroup.lean, `asGroup`), in which nothing is removed and only the owner publishes a stream. C27 ties printed lines to the producer's number; C56 gives that every number was published by the owner, so the owner learns nothing about its own streams; C57 gives the last sentence. One program alone: `c80_foreign`, whatever packets arrive.

*Theorems:* `c80_foreign`, `c80_own`, `c80_others`, `c80_nothing_else`, `c80_everything`.
*Status:* the non-vacuity witness c80_sample meets the hypotheses of all of them

### C81 — A full-sync group converges within a bounded time (proved)

Full-sync nodes stop publishing, and from then on every sync Interest reaches all other nodes and, if some reply, one of their replies is fetched, all within D ms.  Let W be at least lifetime/2 + syncReplyFreshness + 1000 ms (plus twice the time timers may be late), and let the clocks differ by at most d.  If x publications are missing then, counted per node, then when (2x + 2) * (2W + D + d) ms have passed every node holds, for every prefix, the largest number any node held at the start - whatever is in the segment stores and in the queues of waiting Interests, and whether or not the differences between the tables decode.

*How:* Of a node with the fewest publications, no Interest of the second of two quiet rounds can go unanswered as long as another node has something it lacks (Proofs/FairAny.lean, `polledTwice`): whoever knows more has a reply, fresh or at least newer than the last round, and any reply fetched brings something new, since replies are made for the difference (`GoodReply`, `Answerable`). So two rounds without change mean that all tables are equal. Rounds from time: a node sends an Interest at least every W ms (C69), and clocks cannot run ahead of events (Proofs/FairPrompt.lean). That the fetch completes is part of the promise about the network, since a node may stop a fetch when it gives up a waiting Interest.

*Theorems:* `c81_time`, `c81_rounds`.
*Status:* in rounds: c81_rounds; hypotheses as in the quantifier; sample run c81_sample

### C82 — A consumer asks again in time (proved)

A consumer that has sent a hello Interest, is not stopped, and whose application calls sendSyncInterest in every hello callback sends another hello or sync Interest at least every 2L + 500 ms (plus the time timers may be late), if no fetch of it goes on for more than L ms - whatever packets it receives, and however fetches end (in data, nacks, time-outs or errors).

*How:* Without a new Interest, a consumer that is busy (C59) passes through at most: a sync fetch, a hello fetch that a nack started before, and a retry timer (at most 500 ms plus the lag, `muteTimers`), in this order and each at most once (Proofs/ConsumerPace.lean, `step_unsent`). That a fetch ends within L ms is a promise of the SegmentFetcher (Spec/ConsumerRun.lean, `FetchesEnd`): ndn-cxx gives up after maxTimeout.

*Theorems:* `c82_pace`.
*Status:* Model: Spec.CRun is a run of the consumer with arbitrary events, in which a sync fetch completes only after a packet with FinalBlockId; FetchesEnd is the promise of the SegmentFetcher. c82_sample: hello, sync, nack, failed hellos and a failed sync, with silences below the bound.

### C83 — A subscriber learns of a publication within a bounded time (proved)

A partial-sync producer and a consumer whose application has said hello, keeps its subscription to p, does not stop, and calls sendSyncInterest in every hello callback.  From some moment on, whatever the consumer sends reaches the producer, and if the producer sends something in answer the fetch completes, all within D ms.  Then, whatever was lost before and whatever is in the segment store, within max(syncReplyFreshness, helloReplyFreshness) + 2L + 500 + 2D ms (plus the difference of the clocks and the times timers may be late) the consumer's number for every subscribed prefix is at least the one the producer had at that moment, and the update callback has been told of every number in between, in order and without gap or overlap.  L is the time after which fetches end at the latest.

*How:* C82 gives an Interest of the consumer at a time when everything in the producer's store was made after the moment in question (C74, with the events of the producer numbered in the run: `madeAt`, `recent`). When the producer receives it, either it sends nothing, and then the consumer is up to date (C71), or it sends a packet of a recent reply, and the consumer that completes the fetch holds the IBF of that reply (`syncExchange`; all packets of a fetch carry the same IBF, `sync_delivered`), so it is up to date with it (C45); or a nack, and then the hello exchange that follows does it (`helloExchange`). What the application is told: C46. The network's promise (Spec/PubSubPrompt.lean, `PSPrompt`) includes that the consumer does not start another fetch of the same kind before the first is complete.

*Theorems:* `c83_time`, `c83_told`.
*Status:* Model: Spec.PSRun (as C45, C71), with the clocks of both sides; PSPrompt is the promise of the network from a moment on. c83_sample: a reply is lost, the retry is answered from the segment store, and the run goes on beyond the bound.

### C84 — A group of full-sync example programs prints everything within a bounded time (proved)

Full-sync example programs, each with its own streams and a limit of at least 1, draw delays of at most D ms (60000 in the code), run their updates at most l ms late, and packets are delivered as in C81 from some moment on (any losses before).  A program whose clock has passed limit * (D + l) has published 1, 2, ..., limit for each of its streams.  If X is a time not before that moment nor before the last update can be due, then within (2x + 2) * (2W + E + d) ms after X, where x is the number of programs times the number of all updates, E the time packets take, and W, d are as in C81, every program has printed exactly 1, 2, ..., limit for each stream of each other program.

*How:* While an update of a stream with number k is scheduled, it is due at (k+1)·D + k·late at the latest (Proofs/AppGroupPrompt.lean, `Soon`), and k is below the limit (C80), which gives the first sentence. At the event that empties the last timer list the clocks are known within d (`idleFrom`), and from there on nothing is published, so C81 applies to the run of the producers (`Prompt.shift`, with the run of C80); every publication is one of the updates (`allUpdates`), so not more than x are missing and the numbers of no table add up to more than all updates. C80 turns equal numbers into printed lines.

*Theorems:* `c84_published`, `c84_time`, `c84_sample`.
*Status:* Timers may be late by the lag of the model; the promise about the network is Spec/Fair.lean, Prompt (of the producers inside the programs).

### C85 — The example consumer prints a publication within a bounded time (proved)

The example consumer run with a partial-sync producer that removes no prefix.  From some moment on, at which it is subscribed to p, packets take at most D ms (as in C83).  Then, whatever was lost before, within max(syncReplyFreshness, helloReplyFreshness) + 2L + 500 + 2D ms (plus the difference of the clocks and the times timers may be late) it has printed, on top of what it had printed for p, exactly the numbers from the one after its own up to one that is at least the producer's number at that moment and not above the producer's current number.  If the producer is the example producer with limit N, at most d ms between two updates and none more than l ms late, and that moment is more than N * (d + l) ms after its start, then from the same time on the producer has printed 1, 2, ..., N and the consumer consecutive numbers up to N, each once, and this does not change any more.

*How:* The example consumer meets the conditions of C83 on applications: it subscribes only as C45 demands (C76), calls sendSyncInterest in every hello callback and never stop, never removes a subscription (Proofs/ExampleDuo.lean, `goesOn`, `stays`), and its first event is a hello Interest (`starts`). So C83 applies, C75 bounds its number from above, and C72/C76 turn numbers into printed lines. For the example producer the argument of C84 is repeated with the partial-sync producer (`PartApp.Soon`, `Produces.finished`). `c85_sample` is a run of the two programs in which the first update's reply is lost and then served, too old, from the segment store.

*Theorems:* `c85_prints`, `c85_programs`.
*Status:* Stated for runs of both programs (Spec/ExampleRun.lean, Spec/ExampleDuo.lean). NackAtOnce as in C76; timing assumptions as in C83 (PSPrompt, FetchesEnd).

### C86 — A destroyed object is not used any more (partial)

After a FullProducer, PartialProducer or Consumer has been destroyed while its Face lives on (the prefix registration of a producer having been answered before), no later event on the Face - an Interest, a segment, the end of a fetch - runs code of the destroyed object.  In particular every fetch that a newer sync or hello Interest has superseded was stopped.

*How:* Model/Lifetime says what the Face still holds when an object is destroyed, from the members of each class; the state of a producer or consumer counts the fetchers that run without a pointer to them (`orphans`), and every function that replaces a fetcher is shown to leave none. False as stated: Consumer has no destructor that stops its fetchers, PartialProducer keeps no handle of its two Interest filters; `c86_consumer_exact` and `c86_producer_exact` say exactly when code of the destroyed object runs.

*Theorems:* `c86_full`, `c86_full_superseded`, `c86_consumer_superseded`, `c86_consumer_exact`, `c86_stopped_partial`, `c86_producer_exact`, `c86_false_consumer`, `c86_false_producer`, `c86_false`.
*Status:* Proved for FullProducer. False for Consumer (no destructor: a fetch that runs calls back; exactly when one is outstanding; safe after stop()) and for PartialProducer (the handles of its Interest filters are dropped).

### C87 — Probabilities of whole thousandths survive the transmission (proved)

A consumer whose false-positive probability is a literal of at most three decimals from 0 to 1 (the double nearest to k/1000) transmits k, and the producer makes the same double from it; so, provided the consumer's filter could be built, the producer reads from the sync Interest a filter that answers every question as the consumer's own does.  For every other double from 0 to 1 a number t up to 1000 is transmitted; the probability is below (t+1)/1000, the one the producer makes is at most the next double above it, and sending that again changes nothing.

*How:* The operations on doubles are modelled on bit patterns, with exact natural-number arithmetic in units of 2^-1074 before rounding. Rounding to nearest is proved to give a nearest double and to be monotone; k/1000 is never in the middle of two doubles, so that the literal is unique. The round trip of the 1001 values of whole thousandths is computed by the kernel; monotonicity extends it to all doubles from 0 to 1. `c87_interest` feeds it into C52.

*Theorems:* `c87_literal`, `c87_unique`, `c87_interest`, `c87_range`.
*Status:* IEEE 754 arithmetic modelled on bit patterns.

### C88 — No Interest makes the behaviour of a producer undefined (partial)

Whatever Interest reaches a producer, handling it ends, in a reply, a nack, a parked Interest or nothing - never in undefined behaviour (signed overflow, division by zero, an access out of bounds, a conversion of a number that does not fit) or an endless loop.

*How:* False as stated (`c88_false`): a partial-sync Interest with the probability number 0 converts minus infinity to an unsigned number in IEEE arithmetic (`c88_false_probability`, every state, every count that is not a multiple of 2^32), some IBF makes the subtraction of any full-sync node overflow (`c88_false_overflow`), and some other keeps its peeling loop running for ever (`c88_false_endless`). `c88_producer_exact` and `c88_full_exact` say for every state and Interest exactly when the handler fails: reading the name, the numbers and the IBF, the two name lookups, and publishing never do, so all that is left is building the filter (C17), comparing the IBFs (C08) and asking the filter (C34). Partial: IBFs that hold sets and filters with a size of 1 to 2^32-8 bits.

*Theorems:* `c88_false`, `c88_false_probability`, `c88_false_overflow`, `c88_false_endless`, `c88_producer_exact`, `c88_full_exact`, `c88_producer_partial`, `c88_full_partial`.
*Status:* False as stated; the exact conditions under which the handler of an Interest fails are proved for every state. Missing: arbitrary IBFs and filter parameters, for which the claim is false (C08, C17).

### C89 — At most one Data per Interest (partial)

At no time has a producer put more Data on the face than it has received Interests; and every Interest that is still parked is one more that has not been used up.

*How:* False as stated (`c89_false`): an Interest that waits to be tried again and is received once more when it carries our own IBF is parked without ending the wait; the Data that answers it stays in memory for syncReplyFreshness, and every retry of the waiting copy (one per timer, and one per sync Data with news) puts it again. Four Data for two Interests in the witness. `c89_partial_producer`: true for partial sync, with the potential Data + parked. `c89_full_partial`: true for full sync as long as no name is in both lists, with the potential Data + parked + waiting and the invariant that the store answers no waiting Interest; `c89_distinct_partial`: in particular if no two Interests have the same name. `c89_each`: handling one received Interest never puts two Data.

*Theorems:* `c89_false`, `c89_partial_producer`, `c89_each`, `c89_full_partial`, `c89_distinct_partial`.
*Status:* False as stated: a FullProducer answers the retries of a waiting Interest from memory although the same Interest was parked and answered meanwhile (c89_false). True for PartialProducer; true for FullProducer as long as no Interest is in both lists, in particular if no name is received twice.

### C90 — Everything a producer sends fits into an NDN packet (partial)

If the sync prefix, the IBF (not compressed) and the signature have together at most 4311 bytes, then every Data and every Interest that a producer sends is at most 8800 bytes long (the limit above which the face refuses to send and throws), provided that the Interests it receives are.

*How:* False as stated (`c90_false`): a PartialProducer appends its IBF to the name of the sync Interest (prefix, filter and another IBF) and then cuts the content into segments of half a packet whatever the length of that name; in the witness an Interest of 4194 bytes is answered with a Data of 8828 bytes. `Spec/PacketSize.lean` gives the wire forms of the NDN packet format. `c90_full`: true for the FullProducer, for every run (invariant: every stored, parked or waiting name is the prefix, a component of exactly the IBF's size and a number); `c90_full_interest`: the size of its own Interests depends on the options only, up to 14 bytes. `c90_producer_partial`: true for the PartialProducer if the sync Interest names it receives, the IBF and the signature have together at most 4337 bytes. `c90_oversized`: whatever it sends afresh for a sync Interest is at least as long as the Interest's fields, another IBF, the signature and the content together. This is also the condition under which the model's face, which accepts Data of any size, is faithful.

*Theorems:* `c90_full`, `c90_full_interest`, `c90_producer_partial`, `c90_oversized`, `c90_false`.
*Status:* False as stated: c90_false is a PartialProducer within the stated options that answers a sync Interest of 4194 bytes with a Data of 8828 bytes, because the Data repeats the name of the Interest, appends another IBF and may carry 4400 bytes of content. Proved: it holds for the FullProducer in every run (c90_full; its Interests have a size given by the options, c90_full_interest), and for the PartialProducer if the received sync Interest names, the IBF and the signature together have at most 4337 bytes (c90_producer_partial). c90_oversized is the lower bound on the size of every fresh answer.

### C91 — The hash functions of a filter are as many as computed and all different (proved)

A Bloom filter that is made for k hash functions has exactly k salts, no two of them equal and none zero.  Up to 128 they are the predefined ones, each multiplied with the one three places further on and increased by the seed; beyond, the 128 predefined ones followed by products of random numbers.  They depend on nothing but k, so that consumer and producer have the same.

*How:* `Model/Salts.lean` adds the loop that draws random numbers (with fuel, since nothing bounds it) to the model. `c91_mixed`: the mixing loop, for every list of salts, by induction over its rounds. `c91_good`: the salts are as many as asked for, different and not zero; up to 128 the numbers are fixed, and the check is a kernel evaluation over all 129 cases, made short by the fact that all but the last three salts do not depend on their number; beyond 128 by an invariant of the loop, whatever `rand()` returns. `c91_model`: the model of the filter used elsewhere (`genSalts`), which takes the accepted random numbers as given, has the same salts, with one stream for all filters.

*Theorems:* `c91_mixed`, `c91_good`, `c91_model`.
*Status:* For every number of hash functions and every sequence of random numbers: whenever the loop ends, the salts are as many as asked for, pairwise different and not zero (c91_good); c91_mixed states the mixing exactly; c91_model links the loop to the salts used in the model of the filter, which are the same for equal numbers of hash functions. That the random loop ends is not claimed (rand() is outside the code).

### C92 — A consumer sends no Interest without a reason (proved)

At any time the hello Interests (and likewise the sync Interests) that a consumer has sent, together with the retries it has scheduled, are at most as many as the reasons it had for them.  The reasons for a hello Interest are: a call of sendHelloInterest, a hello fetch that failed, a segment of an application nack.  The reasons for a sync Interest are: a call of sendSyncInterest, a sync fetch that failed, a complete sync reply that is not a nack.  If the application never calls stop and makes no calls from its update callback, there is exactly one Interest, sent or scheduled, for every reason.  The consumer sends no other Interests.

*How:* `Spec/ConsumerCause.lean` counts the reasons in every event, from the state before it. `c92_reasons`: Interests in the log plus scheduled retries are at most the reasons, for every run; the potential changes by at most the reasons of the event in every step (timers move one from scheduled to sent). `c92_exact`: equality if `stop` is never called and the update callback makes no calls (which the consumer only invokes if there is news). `c92_kinds`: every Interest in the log is a hello or a sync Interest, and not both. Every segment of a nack that has several is a reason for one more hello Interest (see C51).

*Theorems:* `c92_reasons`, `c92_exact`, `c92_kinds`.
*Status:* For every run. The reasons are counted per event from the state before it; events of fetches that were stopped or replaced are no reasons. See C51 for the nack with several segments, C59 and C82 for the other direction over time.

### C93 — What becomes of a delayed full-sync Interest (proved)

When the timer of the delayed Interests runs, and when a sync reply has brought updates, every delayed Interest is looked at once more.  It is dropped if it was answered in the meantime.  If the segment store has a packet for it, that is sent and it stays delayed.  If the IBF difference now decodes: it is parked for 4 seconds and no longer delayed if there is no difference; if the requester is still ahead it stays delayed the first time and is dropped the second time; otherwise it is answered with what the requester lacks and no longer delayed (it stays delayed if nothing is to be named).  If it does not decode and reports more publications than the node has, it stays delayed the first time; the second time it is dropped and the node sends a sync Interest of its own, unless it is waiting for a reply to become stale or has sent the same less than 100 ms ago.  If it does not decode and reports as many, and only publications that the node lacks were found, it stays delayed; otherwise it is answered with everything the node has and dropped.  If any are left the timer is set again, for 100 to 500 ms.

*How:* `Spec/RetryFate.lean` states the possible outcomes of one more look at a delayed Interest over the packets, the two lists and the numbers of the node. `c93_timer`, `c93_news`: a run of the timer, and a reply with news, are a sequence of such looks, one for every delayed Interest in the order of the names, for every reachable state. `c93_listed`: the names of delayed Interests have an IBF and a number (the outcome is stated for those whose last component is not marked as a segment number). This is C78 for Interests that wait; in contrast to C31, which bounds the number of looks from above, it also says that the second one takes place.

*Theorems:* `c93_timer`, `c93_news`, `c93_listed`.
*Status:* All reachable states. An Interest whose last component is marked as a segment number is only covered up to the answer from the store.

### C94 — A compression scheme that the library was built without is refused (partial)

detail::compress followed by detail::decompress with the same scheme gives back every buffer if the library was built with the scheme; otherwise both throw.  The default scheme is always one that the library was built with, and nodes with the default options understand each other.  A producer whose options name a scheme that the library was built without cannot be constructed.

*How:* `Model/Compression.lean` has the two switches of util.cpp, the enumeration with its default, and which member gets which option; the algorithms are parameters (`Build`), assumed lossless (`Spec.SoundBuild`). `c94_dispatch`: the switches, all schemes and builds. `c94_default`, `c94_wf`: the default is available, and available schemes give the lossless codecs that all other properties assume (`Cfg.WF`). False as stated in two respects. `c94_false`: a FullProducer whose content scheme is missing is constructed, because only the IBF is compressed in the constructor; `c94_construct_partial`: it is refused exactly if the IBF scheme is missing; `c94_content`: with the content scheme missing, in every reachable state everything sent is an Interest or a nack and no update was reported (the exception leaves publishName or the handler of an Interest); `c94_part`: a PartialProducer with the IBF scheme missing never sends anything, and throws on every hello Interest. `c94_default_false`: DEFAULT depends on the build, so that nodes with default options of a build with zlib and one without do not understand each other; `c94_default_partial`: nodes of builds with the same zlib do, in every reachable state.

*Theorems:* `c94_dispatch`, `c94_default`, `c94_wf`, `c94_construct_partial`, `c94_content`, `c94_part`, `c94_default_partial`, `c94_false`, `c94_default_false`.
*Status:* False as stated: c94_false is a FullProducer whose scheme for the content is missing and that is constructed all the same, c94_default_false two nodes with default options, built with and without zlib, that do not understand each other. Proved: the dispatch for all builds, schemes and buffers (c94_dispatch); a FullProducer is refused exactly if the scheme for the IBF is missing (c94_construct_partial); if that for the content is missing it never sends anything but Interests and nacks and never reports anything (c94_content); a PartialProducer without its scheme never sends anything and throws on every hello (c94_part); nodes built with the same zlib, or both without, understand each other's Interests (c94_default_partial). That Boost's algorithms are lossless is assumed.

### C95 — Every value of the constructor options gives a working producer (partial)

A producer that could be constructed can register a prefix and publish it, whatever the value of ibfCount.  The deprecated constructors do the same as the constructors with the corresponding options and then register the user prefix; the IBF has room for as many entries as were asked for.

*How:* `Model/Compression.lean` has both kinds of constructors. False as stated in two respects. `c95_false`: ibfCount = 0 is accepted; `c95_zero_full`, `c95_zero_part`: in every reachable state of such a producer the numbers are all 0 and publishing any other one divides by zero. `c95_full_partial`, `c95_part_partial`: with ibfCount > 0 the first publication works (the later ones: C19, C60). `c95_old_false`: the deprecated constructors take a size_t and cut it to 32 bits; `c95_old_publish`: what they make can publish exactly if the count is not a multiple of 2^32; `c95_old_full_partial`, `c95_old_part_partial`: with a count below 2^32 they do what the other constructors do, plus the registration of the prefix, with enough room. `c95_default`: the default options give 120 and 60 cells.

*Theorems:* `c95_full_partial`, `c95_part_partial`, `c95_zero_full`, `c95_zero_part`, `c95_old_full_partial`, `c95_old_part_partial`, `c95_old_publish`, `c95_default`, `c95_false`, `c95_old_false`.
*Status:* False as stated: with ibfCount = 0 a producer is constructed and divides by zero with the first publication (c95_false, c95_zero_full, c95_zero_part); the deprecated constructors cut a count given as size_t to 32 bits (c95_old_false, c95_old_publish). Proved: with ibfCount > 0 the first publication works, and with a count below 2^32 the deprecated constructors do what they should.

### C96 — A producer can serve every consumer that could be constructed (partial)

Whatever number of elements and false positive probability a Consumer was constructed with, a PartialProducer that receives a sync Interest of that consumer, carrying the producer's own current IBF, processes it without undefined behaviour.  The constructor of the consumer refuses a count of 0 and negative and infinite probabilities.

*How:* False as stated (`c96_false`): the probability is transmitted in whole thousandths, so every probability below 0.001 becomes 0. `c96_false_interest`: for every consumer with such a probability, each sync Interest it ever sends makes every reachable PartialProducer that receives it convert minus infinity to an integer (`Proofs/ConsumerName.lean`: form of every Interest in the log of a consumer; `stored_name`: the producer cannot have an answer to it in its store). The consumer itself need not fail: the witness uses a logarithm with the values that the C standard fixes and -1 between 0 and 1. `c96_rejects`: exactly the options that the constructor of the consumer refuses. `c96_served_partial`: probabilities that are literals k/1000 and filters of at least 8 bits; C61 has whole runs for those.

*Theorems:* `c96_false`, `c96_false_interest`, `c96_rejects`, `c96_served_partial`.
*Status:* False as stated: a consumer with a probability below 0.001 sends the number 0, and every producer that receives one of its sync Interests has undefined behaviour. Partial: probabilities that are literals k/1000.

### C97 — Every value of the constructor options gives a working consumer (partial)

Whatever values the options of a Consumer have, either the constructor throws or it returns a consumer whose addSubscription and removeSubscription never fail.  The default options give a working consumer.  The deprecated constructor does the same as the constructor with the corresponding options.

*How:* False as stated (`c97_false`). `c97_exact` decides every case, for every `std::log` and `std::pow`: with x the smallest of the 999 computed sizes, the constructor throws (count 0, probability negative or infinite), converts an x that does not fit into 32 bits (undefined), returns a consumer without a table, whose first addSubscription writes out of bounds, or returns a consumer that can subscribe whatever happens later (x from 1 to 2^32 - 8). `c97_false_tiny` (probabilities up to 2^-54, where 1 - p is 1), `c97_false_large` (1 and above), `c97_false_nan`, `c97_false_coarse`: families that do not work. `Proofs/Accurate.lean` bounds the error of the whole computation in real numbers (`size_accurate`: relative error below 10^-4 if `log` and `pow` err by at most 2^-40, which is a hypothesis about the C library): so for p from 2^-30 to 1 - 2^-10 `c97_accurate_partial` tells the cases by the sizes -k·n/ln(1 - p^(1/k)) in real numbers, `c97_range_partial` gives a simple range that works (p up to 1/2, n up to 4·10^9·p), `c97_default` the default options, `c97_false_many` n·ln(1/p) of 4.3·10^9 or more, `c97_false_single` one subscription with p from 0.7. `true_accurate` and `true_annexF` construct such functions. Not covered by the partial theorems: probabilities between 2^-54 and 2^-30 and above 1 - 2^-10 (there only `c97_exact`).

*Theorems:* `c97_false`, `c97_exact`, `c97_old`, `c97_false_tiny`, `c97_false_large`, `c97_false_nan`, `c97_false_coarse`, `c97_accurate_partial`, `c97_range_partial`, `c97_default`, `c97_false_many`, `c97_false_single`.
*Status:* False as stated: with a tiny probability or very many subscriptions the constructor converts a number that does not fit, with a coarse one the table has no bytes. Partial: exactly when a consumer works, in terms of the computed sizes for every math library, and of real numbers for an accurate one.

### C98 — Producers with the same publications are interchangeable (partial)

Two PartialProducers with the same sync prefix and options whose getSeqNo agrees for every prefix do the same with every hello and sync Interest that neither answers from its segment store: they send packets that differ at most in the version component, or both send the same nack, or both park the Interest, or both ignore it, whatever their histories, clocks, stores and other parked Interests are.  If they also have the same Interests parked and publish the same, they answer the same of them, again with packets that differ at most in the version, and agree again.

*How:* False as stated (`c98_false`): a hash collision in the history of one producer (C21, C22) leaves a different IBF and so a different hello reply. `c98_interest_partial`: without collisions the sorted tables, the IBFs (C22) and the lookups by hash agree, and the handlers use nothing else. `c98_publish_partial`: the relation `Served` of C42 is deterministic up to versions (`served_same`), because the cut of a buffer into segments is unique (`cut_unique`).

*Theorems:* `c98_false`, `c98_interest_partial`, `c98_publish_partial`.
*Status:* False as stated: after a hash collision two producers with the same publications can have different IBFs. Proved without collisions, for Interests and for publishName.

### C99 — A full-sync node sends a bounded number of sync Interests (proved)

Since its construction a FullProducer has sent no more sync Interests than 1, plus one for every 100 ms that have passed, plus one for every sync Interest it has received.  If all its fetches time out it is one for every syncInterestLifetime/2 + 100 ms instead.  An Interest that is received makes it send at most one at once.  The same holds between any two moments, with one more for the timer and one for every Interest that was parked or delayed at the first.

*How:* Proved. Potential in `Proofs/AskRate.lean`: Interests sent + Interests parked + delayed Interests not dealt with (`askDue`); it rises by at most one with a received Interest and with a firing of the renewal timer, and not otherwise (`step_askDue`), because each other way to send an Interest uses up a parked or delayed one. `step_rearmed`: whatever happens, the timer is left alone or armed at least 100 ms ahead (at least lifetime/2 + 100 ms if no fetch ends), which bounds the firings by the clock. The examples meet both bounds exactly.

*Theorems:* `c99_bound`, `c99_alone`, `c99_between`, `c99_each`.
*Status:* Upper bound on the number of sync Interests, from the start and between any two moments.

### C100 — The Interests of other groups do not disturb a full-sync node (partial)

A FullProducer receives every Interest below its sync prefix, also those of full-sync groups with a longer sync prefix and those of consumers with the same or a longer sync prefix.  It ignores all of them: it sends nothing, throws nothing and its state stays as it is.

*How:* False as stated (`c100_false`): the hello Interest of a consumer whose sync prefix is that of the node plus one component ends in the handler with an exception that nothing catches, in every reachable state (`c100_hello_one`), because "hello" is read as a number outside the try block. Full-sync groups two components longer and hello Interests three components longer get an application nack that does not match the Interest (`c100_full_two`, `c100_hello_three`). Everything else is ignored (`c100_full_partial`, `c100_consumer_partial`): what is in the store has the name P/IBF/number/version/segment (`packet_names`), and no such Interest is a beginning of it; one hypothesis is left for the hello Interest with the same sync prefix: "hello" itself does not decompress to an IBF.

*Theorems:* `c100_false`, `c100_hello_one`, `c100_hello_three`, `c100_full_two`, `c100_full_partial`, `c100_consumer_partial`.
*Status:* False as stated: a consumer's hello Interest below the sync prefix plus one component throws in every full-sync node of the shorter prefix; two and three components more lead to a stray application nack. The partial theorems cover all other Interests.

### C101 — The example producers make as many streams as the command line says (partial)

Whatever command line psync-producer or psync-full-sync is started with: with another number of arguments than four it prints how it is used; with a number that is not an int or a name that cannot be made it ends; otherwise it runs with as many streams as asked for, all with different names, and the limit that was given.  psync-consumer subscribes to the number given.

*How:* False as stated (`c101_false`): with a user prefix of the form "//host" the URI parser takes everything for an authority and all streams have the empty name. `stream_names` follows the text of a stream through the parser (scheme, authority, split at slashes, escape sequences): what is appended has no colon, slash, percent or equal sign, so only the last component depends on it. `c101_names_partial` and `c101_distinct_partial`: different names in all other cases; missing are user prefixes with an equal sign (typed components). `c101_accepted`, `c101_too_large`, `c101_usage`, `c101_consumer`: the numbers. `c101_published_partial` joins it to C65: from the command line to what is published.

*Theorems:* `c101_false`, `c101_names_partial`, `c101_distinct_partial`, `c101_accepted`, `c101_usage`, `c101_too_large`, `c101_published_partial`, `c101_consumer`.
*Status:* False as stated: with the user prefix //host all streams have the empty name. The partial theorems leave out user prefixes with an equal sign.

### C102 — The printed IBF shows what is in it (proved)

The text that operator<< makes of an IBF has a line for every entry.  It shows how many of the keys that were inserted and not erased are stored in the entry, their exclusive or, and whether the check value fits, which it always does for no key and for one key.  The text can be read in one way only.  IBFs with the same text have the same counts and key sums.  Bloom filters have the same text exactly if they are equal.  The text of a State tells its names and their order.

*How:* Proved. `Spec.ShowsRows` says what a text shows without reference to the printing code; `c102_unique`: at most one list of rows (split at blanks and newlines, decimal numbers have one value). `c102_shows` and `c102_set`: the closed form of the table of C01 gives the three numbers of every line. `c102_same`: any two tables. `c102_bloom`, `c102_bloom_unique`, `c102_bloom_same`: the same for Bloom filters, two hexadecimal digits per byte. `c102_state`: for every way to print names that is injective, without commas and never empty (ndn-cxx escapes commas).

*Theorems:* `c102_unique`, `c102_shows`, `c102_set`, `c102_same`, `c102_bloom`, `c102_bloom_unique`, `c102_bloom_same`, `c102_state`.
*Status:* c102_state takes the way ndn-cxx prints a name as a parameter: injective, not empty, without commas.

### C103 — Nothing published before the prefix is registered is lost (proved)

Until the forwarder has accepted the sync prefix, a PartialProducer answers no Interest and keeps none.  What is added, removed and published meanwhile counts: the state is that of a producer registered from the start that received the later Interests only, and the first hello Interest after the success is answered with every prefix and its current number.  A FullProducer does not wait: its states before the success are those of a registered one.  If the forwarder refuses the prefix, both throw ProducerBase::Error out of the event loop.

*How:* Proved. Model/Register.lean puts the forwarder's answer around the two producers: a PartialProducer sets its Interest filters in the callback for success, a FullProducer at once. `c103_same` is a simulation (`Spec.Heard` says which events count), `c103_reach` and `c103_all` carry every theorem about `Part.Reach` over in both directions. `c103_silent`: invariant of the waiting states. `c103_hello` uses C44 and the empty store. `c103_full`: simulation in both directions. `c103_refused`: both callbacks throw.

*Theorems:* `c103_same`, `c103_reach`, `c103_all`, `c103_silent`, `c103_hello`, `c103_refused`, `c103_full`.
*Status:* The forwarder answers a registration at most once.

### C104 — Nodes with IBFs of different sizes ignore each other (proved)

A FullProducer ignores every sync Interest of a node of the same group whose option ibfCount gives an IBF of another size: nothing is sent and nothing changes.  A PartialProducer ignores every sync Interest that carries the IBF of a producer with another size.  Values of ibfCount that give the same size (2k-1 and 2k) understand each other: the IBF is read as the sender had it.

*How:* Proved. Both nodes are in any reachable state, with any options but the same prefix and lossless compression. The Interest carries the IBF of an earlier state of the sender (`asked_ibf`); its length differs, so C02 refuses it (`size_matters`). It is not answered from the store either: the names of all stored packets contain an IBF that was read (`packet_names` of C100, `Part.packets_named`). `c104_producer` is for outcomes that are defined, see C96 for the others. `c104_full_same`, `c104_producer_same`: round trip of C02.

*Theorems:* `c104_full`, `c104_full_same`, `c104_producer`, `c104_producer_same`.
*Status:* c104_producer is for handlers that end; what else a filter can do is in C96.

### C105 — Every Interest of a consumer fits into an NDN packet (partial)

If the sync prefix and the filter of a Consumer have together at most 400 bytes, every hello and sync Interest that it sends is at most 8800 bytes long (the limit above which the face refuses to send and throws), provided that the Data it receives are.

*How:* False as stated (`c105_false`): a hello reply within the limit whose IBF has 8650 bytes makes a consumer with a filter of 108 bytes send an Interest above it; the face throws out of the callback. `c105_name_partial`, `c105_partial`: bounds in terms of the largest name component received; the invariant is that the IBF and the two Data names consist of received components. An honest producer's IBF takes 12 bytes per entry and at most 4 more, and `c105_name_partial` gives the bound that `c90_producer_partial` asks for.

*Theorems:* `c105_name_partial`, `c105_partial`, `c105_false`.
*Status:* False as stated (c105_false). Proved for Data whose name components take at most 8742 bytes less the prefix and the filter.

### C106 — What a node remembers does not grow with the number of publications (proved)

A producer has numbers only for prefixes that the application added or, in full sync, that a reply announced; its table of names and hashes has at most one entry for each prefix with a publication; its IBF keeps the size it was constructed with; and its segment store stays within its limit.  A consumer has numbers only for prefixes it subscribed to or that a sync reply announced, and its filter keeps its size.  So, with publications of any number under a given list of prefixes, none of these tables ever has more entries than the list.

*How:* Proved, for `ibfCount` and limit above 0. `Within` (keys of a table are in a list) is kept by every event that tells of no other prefix; a sorted table has no key twice, so its length is bounded. `Base.Inv.biMap_le`: the names in the table of hashes are different latest publications, collisions or not. Store: every small step keeps the limit (`Micros.store_le`). IBF: `Steps.ranged`. Filter: `Bloom.runBf_length`. How long parked and delayed Interests and erasure timers are kept is in C30, C31, C43, C72 and C74.

*Theorems:* `c106_full`, `c106_producer`, `c106_consumer`.
*Status:* Parked and delayed Interests are bounded in time (C30, C31, C43, C72), not in number.

### C107 — Consumers with the same subscriptions are interchangeable (proved)

Two Consumers with the same sync prefix and options that are subscribed to the same prefixes and last received the same IBF send the same sync Interest, whatever their numbers and histories are.  If they also have the same numbers and the same fetches running, they do the same with every call, segment, complete reply and failure: both fail in the same way, or both send and report the same and agree again.  Their clocks, timers and random numbers may differ.

*How:* Proved. The filter is determined by the subscriptions (C15; a filter without bytes never changes, `runBf_empty`), the tables by the numbers (`NMap.ext`), so two consumers that are alike are equal but for clock, timers, random numbers and log; `Twin` relates such states and every event keeps it. For the event that runs a timer the same kind has to be due in both, since the deadlines differ.

*Theorems:* `c107_interest`, `c107_event`.
*Status:* If a timer runs, the same kind has to be due in both.

### C108 — Publications after a restart are reported (partial)

A producer that is restarted starts with sequence number 0 again.  When it publishes a prefix of its previous life and another member (or a subscribed consumer) that knows the prefix from then receives a reply with the new number, it reports the new publication through its update callback.

*How:* False: a member that has 7 for a prefix ignores the 1 of the restarted producer (`c108_false`). Proved: exactly which numbers a reply makes a full-sync member or a consumer report, namely those above its own number up to the largest one in the reply (from the tiling of C27 and C46 and the maximum of C26 and C46); so a number above the old one is reported (`c108_heard_partial`); and a full-sync member that has processed a reply with number x of a prefix publishes numbers above x for it afterwards (`c108_resumes_partial`), so it only has to listen before it publishes. A PartialProducer never listens: its application has to pass the number on.

*Theorems:* `c108_full_reported`, `c108_consumer_reported`, `c108_resumes_partial`, `c108_heard_partial`, `c108_false`.
*Status:* The claim is false: numbers at or below the one of the previous life are ignored (witness). Proved: exactly which numbers are reported for a reply, that numbers above the old one are, and that a full-sync member that has heard its old number goes on above it.

### C109 — A removed prefix stays removed (partial)

After removeUserNode(p), getSeqNo(p) has no value until the application calls addUserNode(p) again, whatever is published or received in between, and no publication of p is reported in the meantime.

*How:* Proved for partial sync (every event, `Part.step_registers`). False for full sync: a reply of a member that still has the prefix registers it again and reports its publications from 1 on (`c109_false`, `c109_again`). Partial: this and addUserNode are the only ways (`c109_full_partial`, with the tables of C106); without them nothing of the prefix is reported, by the tiling of C27 from 0 to 0.

*Theorems:* `c109_producer`, `c109_full_partial`, `c109_again`, `c109_false`.
*Status:* Proved for partial sync. For full sync the claim is false: replies of members that still have the prefix bring it back (witness), and its publications are then reported again from 1 on. Partial: without such a reply and without addUserNode it stays absent and nothing of it is reported.

### C110 — Nothing that is received keeps a producer from publishing (partial)

Whatever Interests and Data a producer receives, publishName(p) without a number, on a registered prefix whose number was below 2^64-1 before, gives p a higher number than it had, and the members and consumers that learn of it report it.

*How:* Proved for partial sync: Interests and timers do not change the numbers, so publishName gives what it would have given before. False for full sync: segments are accepted without validation, and a reply with 2^64-1 for a prefix takes its last number (`c110_false`); from then on the number never changes and neither members nor consumers that got it report anything of the prefix (`c110_stuck_full`, `c110_stuck_consumer`: monotone by C18 and C46, below 2^64 by the invariants, tiling). Partial: without a reply with that number publishName adds one to the largest number received (`Full.run_best`).

*Theorems:* `c110_producer`, `c110_full_partial`, `c110_stuck_full`, `c110_stuck_consumer`, `c110_false`.
*Status:* Proved for partial sync. For full sync the claim is false: a reply with the number 2^64-1, which nobody validates, takes the last number of the prefix (witness), and from then on nothing of it is published or reported. Partial: without a reply with that number, publishName gives a higher number.

### C111 — A producer that reads a sync Interest finds the subscriptions in it (partial)

Whatever number of elements and false positive probability a Consumer was constructed with: if a PartialProducer of the same sync prefix can read the filter in a sync Interest of the consumer, then it finds every prefix the consumer is subscribed to in that filter, so that it tells the consumer about them.

*How:* Props/Overlooked.lean. `c111_found_partial` reduces to C52 by showing that equal byte sizes and equal numbers of hash functions mean equal parameters. `c111_never` follows from the history of everything a producer sends (C39). The witness of `c111_false` gives the search for the parameters by a table of the two values that matter; they are those of real arithmetic (13.04 bits and 9 hashes for 0.0019, 14.38 bits and 10 hashes for 0.001).

*Theorems:* `c111_found_partial`, `c111_never`, `c111_unheard`, `c111_false`.
*Status:* Holds if the filter the producer makes of the transmitted numbers has as many hash functions as the consumer's (C87: for all probabilities of whole thousandths). False otherwise: for 1 subscription and the probability 0.0019 both tables have 2 bytes, so the Interest is read, but the producer asks for 10 hash functions where the consumer used 9 and does not find the subscription. If a prefix is not found, no reply to the Interest ever lists it.

### C112 — Parked Interests do not accumulate at a PartialProducer (partial)

If more time has passed since some moment than the lifetime of any sync Interest that was received before it, then a PartialProducer keeps at most as many parked Interests as it has received Interests since.  In particular nothing is parked when no Interest has come for long enough.

*How:* Props/Accumulate.lean, from C43 (when a parked Interest was received) and the fact that the keys of the table are different. `c112_grows` is proved by induction over the list of tables: each round (Interest, 10 ms, timer) leaves one more entry without a timer.

*Theorems:* `c112_bounded_partial`, `c112_grows`, `c112_false`.
*Status:* Holds as long as only names of the form a consumer sends first are received. False for Interests that ask for a segment of a reply: their timers erase a name that is not in the table, so any number of them (one for each of 256^11 tables in the witness) stays parked for ever at a producer that does not publish.

### C113 — Interests of others do not accumulate at a FullProducer (proved)

If more time has passed since some moment than the lifetime of any sync Interest received before it and than 65535 retries of the waiting list (500 ms each at most) and 4 s, then a FullProducer keeps, both in its table of parked Interests and in its list of waiting Interests, only Interests it has received since, and not more of them than it has received.  In particular it keeps nothing when it has heard nothing for that long.

*How:* Props/Bounded.lean. A reverse induction over the run shows that an Interest that waits was received and has been waiting since (`wait_origin`); C73 bounds how long that can be, C30 tells where parked Interests come from. The number of keys follows because they are different.

*Theorems:* `c113_waiting`, `c113_parked`, `c113_forgets`.
*Status:* Full-sync counterpart of C112, which is false for PartialProducer. The bound of about nine hours for waiting Interests is the 65535 retries of the code; C73 shows one second for Interests that stay ahead of the node.

### C114 — An Interest that waits at a FullProducer waits a second at most (partial)

An Interest that is put on the waiting list, because it is about data the node does not have yet, is retried at most twice: it is answered, parked or given up within two intervals of at most 500 ms.

*How:* Props/Stuck.lean. `c114_nine_hours` is an induction over the number of retries: the state after each round (500 ms pass, the timer fires) differs from the one before only in the clock, the timer, the number of draws and the count of the Interest. The partial theorem follows C31/C73 with the weaker condition `Decided` instead of `AheadOf`.

*Theorems:* `c114_decided_partial`, `c114_nine_hours`, `c114_false`.
*Status:* Holds if at every retry what the node has to say to the Interest is clear (Decided). False otherwise: when an Interest about /a/2 waits and the node then publishes /a/1, the retry finds only a publication whose successor the sender has, sends nothing (full-producer.cpp:384-404) and does not mark the entry; it is retried 65534 times, for 500 ms times 65535, which is exactly the bound of C31 and C73.

### C115 — No reply lists a prefix twice (partial)

Every sync or hello reply of a producer lists each prefix at most once, whatever Interest it answers and even if hashes collide: no name occurs twice and no prefix with two numbers.

*How:* Props/Once.lean. The positive half of a difference is an ascending list for arbitrary tables (`diff_positive_nodup`), different hashes stand for different names, and current names of one prefix are equal. A traversal of all events (`step_once`) shows this for all recorded replies, and every Data sent is a packet of a recorded reply. The exception is exactly the number that publishName appends.

*Theorems:* `c115_partial_sync`, `c115_full_partial`, `c115_false`.
*Status:* Proved for PartialProducer without exception. For FullProducer it is false: when publishName is called with a number below the current one (for instance after a restart, when the larger number arrived from another node while an Interest was parked), the reply lists the prefix with both numbers (c115_false: /a/5 and /a/3). c115_full_partial: this is the only exception; the smaller number is then the last name, was published by the application, and the rest of the list has each prefix once.

### C116 — The order in which a consumer receives replies does not matter (proved)

A Consumer that processes the same hello and sync replies in any order, any number of times each, with failures, timeouts, nacks and calls about other prefixes in between, ends with the same number for every prefix it is subscribed to, and its update callback has been told the same numbers of it: those above the number at the beginning up to the number at the end.

*How:* Props/Order.lean. Each event changes the number of a subscribed prefix to the maximum of it and what the processed content announces (`Cons.step_best`, from the theorems of C46); the maximum depends on the set of announcements only. The numbers reported follow from the tiling of C46.

*Theorems:* `c116_same_numbers`, `c116_same_reports`.
*Status:* Both hello and sync replies, honest or not, as long as they can be read (an unreadable one throws, C35). Runs are compared by the set of contents processed (contentsHeard); the hello callback itself gets the contents in the order they come.

### C117 — Full-sync nodes with the same publications give the same answers (partial)

Two FullProducers with the same sync prefix and options and the same sequence numbers put the same packets, up to the versions, in answer to an Interest that neither answers from its segment store, whatever their histories, clocks, parked, waiting and outstanding Interests; and if they hold back the same Interests, also when they publish the same name.

*How:* Props/Twin.lean. Without collisions the prefix map, IBF and both lookups of the maps are functions of the sequence numbers (C22, `Full.sameBase_of`), and each branch of the handlers is compared. What the numbers do not determine is the count of own elements in the branch for undecodable IBFs: it includes what was removed (C23). False witness: of two nodes with the same nine publications, only the one that has removed a prefix answers an undecodable Interest with count 10. Proved: all Interests if the sums of the removed numbers agree, decodable Interests always, and publications.

*Theorems:* `c117_answers_partial`, `c117_decodable_partial`, `c117_publish_partial`, `c117_false`.
*Status:* False as stated: nodes from which different prefixes have been removed answer undecodable sync Interests differently (c117_false), because the count of own elements includes removed numbers; and hash collisions (C22). Proved without collisions: for all Interests if the sums of the removed numbers agree, for decodable Interests whatever was removed, and for publications.

### C118 — A group that agrees stays at rest (partial)

Once all nodes of a full-sync group have the same number for every prefix and nobody publishes or removes anything, no number changes and no update callback is called any more, however late, often and out of order Interests and replies arrive.

*How:* Props/Rest.lean. Everything a node can be told was published (C56), the publisher has had that number since (without removals), and so has every node from the moment of agreement; an update callback reports at least one number that the node did not have (`Micros.rest`). With removals it is false: a reply on its way brings back a prefix that has been removed everywhere (`c118_false`).

*Theorems:* `c118_rest_partial`, `c118_false`.
*Status:* False as stated: a reply that is on its way when a prefix is removed from all nodes brings the prefix back and is reported (c118_false). Proved for runs without removals, with any hash collisions; as in C56, replies to the same Interest carry different versions.

### C119 — A subscriber that is up to date is left alone until the next publication (proved)

If the number that a Consumer has for a prefix is still the producer's number at a later moment, its update callback has been told nothing of the prefix in between, whatever old, repeated or reordered replies and hello replies it has processed and whatever it has done with other prefixes.  (The producer does not remove the prefix, the consumer does not unsubscribe from it, and the numbers given when subscribing were numbers of the producer.)

*How:* Props/Heard.lean. The events at the consumer between the two moments form a run (`consumer_span`); the ranges reported in it follow each other from the earlier number to the later one and are not empty (C46), and the later one is not above the producer's (C75).

*Theorems:* `c119_left_alone`.
*Status:* all applications; as C75 without hash collisions among published names, with matching parameters, and packets not forged

### C120 — Each callback of a consumer describes one moment of the producer (proved)

In any exchange between a partial-sync producer and a consumer (Data lost, delayed, repeated, reordered or cached, but none forged), the map given to the hello callback is exactly the producer's list of prefixes and sequence numbers at one moment: none is left out, none is added and no two moments are mixed.  The highest numbers in one call of the update callback are likewise the producer's numbers at one moment, except in the call that the application asks for when it subscribes.

*How:* Props/Snapshot.lean. `Cons.Gave` says what the two callbacks have been given; `Gave.step` follows it through every event; `PSRun.gave` uses C45's description of what a completed fetch delivers (`hello_delivered`, `sync_delivered`): the content made from one state of the producer's table.  The map of the hello callback is compared with that table in both directions (`told_hello`, `offered_all`).  The example reports two prefixes in one hello.

*Theorems:* `c120_snapshot`, `c120_one_moment`.
*Status:* Every run of a producer and a consumer; see C45 for the assumptions on the run (no forged Data, no hash collisions among published names).

### C121 — One call of an update callback mentions each prefix once (partial)

The list that is given to an update callback never contains two entries for one prefix, so an application that handles the entries one by one does not fetch a range twice or in two parts: neither at a FullProducer of a group, however replies are parked, stored, delayed, repeated and cut into segments and even if a reply lists a prefix with two numbers (C115), nor at a Consumer that is served by a PartialProducer.

*How:* Props/Mention.lean. What is merged at a FullProducer is a part, in order, of what the reply announces (`merge_sublist`), and each merged number of a prefix is above the one before (`MergeRel.rising`); so a prefix is merged twice only if the reply lists it again with a larger number (`Falling` excludes this).  The replies of a group do not, by C115, whose record of each reply says in addition from which table its names come, so that the receiver reads the same list (`GRun.falling`).  A Consumer: the number reported last is the one in the table (`Cons.Tidy`), and one content has one number per prefix.  A forged reply with /a/1 and /a/2 is reported twice (`c121_false`).

*Theorems:* `c121_group_partial`, `c121_consumer_partial`, `c121_full_partial`, `c121_replies`, `c121_false`.
*Status:* All runs of groups and of a producer with a consumer (assumptions of C56 and C45). False for a forged reply that lists a prefix twice with increasing numbers (c121_false); c121_full_partial says which replies are safe.

### C122 — A full-sync node is told nothing of what it published itself (proved)

As long as a node does not remove a prefix, every range that its update callback is given for the prefix begins above all numbers the node itself has published for it before, whatever it receives, even forged replies.  In a group in which nobody else publishes the prefix, the callback of its publisher is never given the prefix at all, although the replies of the other nodes list it; in general, the highest number of every range reported in a group has been published by another node.

*How:* Props/Own.lean. An update is given only when a fetch completes, and then it is what `merge` adds to the table of that moment (`step_news`); every merged range begins above the number in the table (`MergeRel.beyond`), which is not below what the node published and did not remove (`ownMadeOf`).  In a group, what is received has been published before the event (`GRun.received`), so by the node itself if nobody else publishes the prefix.  An example shows that a removed prefix is reported to its publisher when an old reply comes back.

*Theorems:* `c122_beyond_own`, `c122_by_others`, `c122_own`.
*Status:* c122_beyond_own holds for every execution and all received data; the others for all groups (assumptions of C56).

### C123 — An update callback is called at most as often as the others publish (proved)

In a full-sync group, the update callback of a node that removes no prefix is called at most as often as the other nodes have published, all its calls together have at most that many entries, and no call is empty, however often replies are repeated, stored, delayed and reordered.  For every node that removes no prefix, whatever it receives, the highest numbers given for a prefix increase strictly from entry to entry.

*How:* Props/Often.lean. Along the small steps of a node without removals the reported highest numbers of a prefix increase and stay at or below the table (`Micro.told`, with `MergeRel.rising` and `MergeRel.known`), and no call is empty.  So the reported pairs are all different, and by C122 each is a publication of another node (`c122_by_others`); the count follows.  The example reaches the bound; another one shows that after a removal a number is reported twice.

*Theorems:* `c123_rising`, `c123_bound`.
*Status:* c123_rising holds for every execution without removals and all received data; c123_bound for all groups (assumptions of C56).

### C124 — A consumer's update callback is called at most as often as there are publications and subscriptions (proved)

In any exchange between a partial-sync producer and a consumer that does not unsubscribe (Data lost, delayed, repeated, reordered or cached, but none forged), all calls of the update callback together have at most as many entries with a number other than 0 as publishName and addSubscription were called; so there are at most that many calls with such an entry.  For every consumer that does not unsubscribe, whatever it receives, the highest numbers given for a prefix increase strictly from entry to entry and no call is empty.

*How:* Props/Seldom.lean. Invariant of a consumer together with the entries it has computed but not yet reported, since the hello callback comes in between and may subscribe (`Reports`): the numbers of a prefix increase and stay at or below the table (`Climbs`), and no call is empty.  So the reported pairs are all different, and by C75 each with a number other than 0 was made by a call of publishName or given to addSubscription; the count follows.  Number 0 is left out because publishName with number 0 on a new prefix answers a parked Interest with that number without publishing anything (C125); without such calls all entries are counted (`c124_all` in Props/Filled.lean).  Examples: a run with two publications, a subscription that reaches the bound, and one in which unsubscribing lets a number be reported twice.

*Theorems:* `c124_rising`, `c124_bound`, `c124_calls`, `c124_all`.
*Status:* c124_rising holds for all received data; the others for all runs of a producer and a consumer (assumptions of C45). Needs that the application does not unsubscribe (example). Entries with number 0 are not counted; c124_all: if nobody gives 0 to publishName, there are none.

### C125 — An update callback is never given an empty range (partial)

Every entry that is given to an update callback names at least one sequence number: its lowest number is at least 1 and not above its highest number.  This holds at every node of a full-sync group and at every consumer that is served by a partial-sync producer.

*How:* Props/Filled.lean. False in both settings: publishName with number 0 for a new prefix changes no table, but a parked Interest is answered with that number (full-producer.cpp:514-516, partial-producer.cpp:232-234); a node or a consumer that does not know the prefix then reports the range from 1 to 0 (`c125_group_false`, `c125_consumer_false`, concrete runs without forged data; the consumer has unsubscribed while its Interest was parked).  Proved for everything received: a range whose highest number is not 0 is not empty, at a node (`c125_node_partial`, from the relation of `merge`) and at a consumer (`c125_consumer_partial`, from the two loops); and in a group in which nobody gives 0 to publishName no range is empty (`c125_group_partial`, the numbers reported were published by C56's invariant).  The same holds for a consumer whose producer never gives 0 to publishName (`c125_pubsub_partial`: the replies to sync Interests then list positive numbers only, `Part.step_positive`).  Missing: nothing but the excluded publications of 0.

*Theorems:* `c125_group_false`, `c125_consumer_false`, `c125_group_partial`, `c125_pubsub_partial`, `c125_node_partial`, `c125_consumer_partial`.
*Status:* False as stated: publishing the number 0 for a new prefix while an Interest is parked makes others report the range from 1 to 0 (c125_group_false, c125_consumer_false). Proved: no range is empty in groups and exchanges in which nobody gives 0 to publishName, and whatever is received, a range with a highest number other than 0 is not empty.

## Axioms of each theorem

`#print axioms` for every theorem named in MANIFEST.json (run `tools/axioms.sh` to repeat).

* **propext** (5): `c16_rejects`, `c20_add`, `c94_default`, `c97_old`, `c101_false`
* **propext, Quot.sound** (85): `c12_decode_exact`, `c12_unambiguous`, `c14_no_false_negative`, `c14_contains_iff`, `c15_set_only`, `c15_clear`, `c20_remove`, `c20_calls`, `c22_false`, `c54_total`, `c55_expiry`, `c29_false`, `c30_false`, `c38_attempt_partial`, `c38_after_reply`, `c38_false`, `c38_event`, `c38_exact`, `c34_partial_producer`, `c34_full_partial`, `c34_false`, `c37_false`, `c39_false`, `c43_false`, `c44_other_ignored`, `c47_reflects`, `c47_false`, `c48_false`, `c48_false_hello`, `c50_stop`, `c50_stop_in_hello`, `c50_false`, `c51_nack`, `c51_completed`, `c51_false`, `c52_false`, `c35_witnesses`, `c35_false`, `c58_false`, `c59_timer_sends`, `c61_needs_hello`, `c62_only_hello`, `c62_false`, `c64_consumer_partial`, `c64_full_partial`, `c64_consumer_hangs`, `c64_full_hangs`, `c64_false`, `c65_zero`, `c65_full_false`, `c72_false`, `c86_full`, `c86_full_superseded`, `c86_consumer_superseded`, `c86_producer_exact`, `c86_false_producer`, `c86_false`, `c89_false`, `c90_false`, `c91_mixed`, `c91_good`, `c92_kinds`, `c94_wf`, `c95_old_full_partial`, `c95_old_part_partial`, `c98_false`, `c101_usage`, `c101_too_large`, `c101_consumer`, `c102_unique`, `c102_bloom`, `c102_bloom_unique`, `c102_bloom_same`, `c102_state`, `c103_all`, `c103_refused`, `c103_full`, `c105_false`, `c109_false`, `c110_false`, `c111_unheard`, `c111_false`, `c115_false`, `c117_false`, `c121_false`
* **propext, Classical.choice, Quot.sound** (334): `c01_net_effect`, `c01_total`, `c01_insert_erase`, `c02_round_trip`, `c02_accepts`, `c02_faithful`, `c03_diff_exact_partial`, `c03_false`, `c04_single_key`, `c05_decodes_iff`, `c05_total`, `c05_two_keys`, `c06_antisymmetric`, `c07_terminates_partial`, `c07_false`, `c08_no_overflow_partial`, `c08_false`, `c08_overflow`, `c08_any_partial`, `c09_empty_iff_equal`, `c09_equal_decodes`, `c10_murmur_injective`, `c10_check_identifies`, `c10_name_hash`, `c11_round_trip`, `c13_read_back`, `c13_injective`, `c13_injective_wire`, `c16_round_trip`, `c17_safe_partial`, `c17_exact`, `c17_false`, `c17_false_cast`, `c17_false_zero`, `c17_false_large`, `ieee_at_one`, `ieee_at_zero`, `c18_full_monotone`, `c18_partial_monotone`, `c19_full_publish`, `c19_partial_publish`, `c19_total`, `c21_ibf_exact_partial`, `c21_false`, `c22_same_ibf_partial`, `c23_cumulative_count`, `c23_current`, `c23_ibf_partial`, `c53_segmentation`, `c53_count`, `c54_requested_segment`, `c55_store_sound`, `c55_keeps_recent`, `c24_false`, `c24_reply_current_partial`, `c24_history_partial`, `c25_false`, `c25_reply_complete_partial`, `c26_merge_max`, `c28_same_numbers`, `c28_same_ibf_partial`, `c28_false`, `c27_ranges_tile`, `c27_remote_prefix`, `c27_exactly_once`, `c29_answers_all_partial`, `c29_exact`, `c30_expires_partial`, `c30_renewed`, `c30_only_alive_answered`, `c31_bounded`, `c31_at_most_twice`, `c32_scheduled`, `c32_transmits`, `c33_no_deadlock`, `c34_full_exact`, `c36_nack_matches_partial`, `c36_full_never`, `c36_false`, `c37_full_partial`, `c39_publish_current`, `c37_exact`, `c39_reply_sound_partial`, `c39_history`, `c40_reply_complete`, `c41_nack_condition`, `c42_publish_serves`, `c43_expires_partial`, `c44_hello_reply`, `c46_ranges`, `c46_ranges_new`, `c46_sync_merge`, `c46_hello_merge`, `c47_add_partial`, `c47_remove`, `c48_origin_partial`, `c49_filter`, `c49_filter_current`, `c51_later_partial`, `c52_format_partial`, `c52_exact`, `c52_unserved`, `c52_ibf_hello`, `c52_ibf_sync`, `c87_interest`, `c35_hello_exact`, `c35_sync_exact`, `c35_honest_proper`, `c35_full_partial`, `c35_full_total`, `c35_full_exact`, `c56_no_invention_partial`, `c56_publisher`, `c56_false`, `c57_converge_partial`, `c57_sample`, `c57_false`, `c45_up_to_date_partial`, `c45_up_to_date_many_partial`, `c45_false`, `c45_false_stale`, `c58_partial_producer`, `c58_full_partial`, `c59_never_silent`, `c59_needs_callback`, `c60_never_fails`, `c61_never_fails`, `c62_subscribes_partial`, `c62_every_hello_partial`, `c62_at_most`, `c62_out_of_bounds`, `c63_prints_consecutive`, `c65_part_partial`, `c65_full_partial`, `c65_part_value`, `c65_full_value`, `c66_rounds_partial`, `c66_false`, `c66_sample`, `c67_wait_out`, `c68_timed_partial`, `c68_sample`, `c68_false`, `c69_retry`, `c69_renew`, `c69_pace`, `c70_spacing`, `c71_waiting`, `c71_asking`, `c71_reply`, `c71_hello`, `c72_full_partial`, `c72_partial_producer`, `c73_retried`, `c73_ahead`, `c73_never_forever`, `c74_full`, `c74_full_empties`, `c74_partial_producer`, `c74_partial_producer_empties`, `c75_offered`, `c75_notified`, `c75_known`, `c75_not_ahead`, `c76_prints_all`, `c76_prints_at_least`, `c76_up_to_date`, `c76_published`, `c77_arrival`, `c78_arrival`, `c78_honest`, `c79_full`, `c79_partial_sync`, `c80_foreign`, `c80_own`, `c80_others`, `c80_nothing_else`, `c80_everything`, `c81_time`, `c81_rounds`, `c82_pace`, `c83_time`, `c83_told`, `c84_published`, `c84_time`, `c84_sample`, `c85_prints`, `c85_programs`, `c86_consumer_exact`, `c86_stopped_partial`, `c86_false_consumer`, `c87_literal`, `c87_unique`, `c87_range`, `c88_false`, `c88_false_probability`, `c88_false_overflow`, `c88_false_endless`, `c88_producer_exact`, `c88_full_exact`, `c88_producer_partial`, `c88_full_partial`, `c89_partial_producer`, `c89_each`, `c89_full_partial`, `c89_distinct_partial`, `c90_full`, `c90_full_interest`, `c90_producer_partial`, `c90_oversized`, `c91_model`, `c92_reasons`, `c92_exact`, `c93_timer`, `c93_news`, `c93_listed`, `c94_dispatch`, `c94_construct_partial`, `c94_content`, `c94_part`, `c94_default_partial`, `c94_false`, `c94_default_false`, `c95_full_partial`, `c95_part_partial`, `c95_zero_full`, `c95_zero_part`, `c95_old_publish`, `c95_default`, `c95_false`, `c95_old_false`, `c96_false`, `c96_false_interest`, `c96_rejects`, `c96_served_partial`, `c97_false`, `c97_exact`, `c97_false_tiny`, `c97_false_large`, `c97_false_nan`, `c97_false_coarse`, `c97_accurate_partial`, `c97_range_partial`, `c97_default`, `c97_false_many`, `c97_false_single`, `c98_interest_partial`, `c98_publish_partial`, `c99_bound`, `c99_alone`, `c99_between`, `c99_each`, `c100_false`, `c100_hello_one`, `c100_hello_three`, `c100_full_two`, `c100_full_partial`, `c100_consumer_partial`, `c101_names_partial`, `c101_distinct_partial`, `c101_accepted`, `c101_published_partial`, `c102_shows`, `c102_set`, `c102_same`, `c103_same`, `c103_reach`, `c103_silent`, `c103_hello`, `c104_full`, `c104_full_same`, `c104_producer`, `c104_producer_same`, `c105_name_partial`, `c105_partial`, `c106_full`, `c106_producer`, `c106_consumer`, `c107_interest`, `c107_event`, `c108_full_reported`, `c108_consumer_reported`, `c108_resumes_partial`, `c108_heard_partial`, `c108_false`, `c109_producer`, `c109_full_partial`, `c109_again`, `c110_producer`, `c110_full_partial`, `c110_stuck_full`, `c110_stuck_consumer`, `c111_found_partial`, `c111_never`, `c112_bounded_partial`, `c112_grows`, `c112_false`, `c113_waiting`, `c113_parked`, `c113_forgets`, `c114_decided_partial`, `c114_nine_hours`, `c114_false`, `c115_partial_sync`, `c115_full_partial`, `c116_same_numbers`, `c116_same_reports`, `c117_answers_partial`, `c117_decodable_partial`, `c117_publish_partial`, `c118_rest_partial`, `c118_false`, `c119_left_alone`, `c120_snapshot`, `c120_one_moment`, `c121_group_partial`, `c121_consumer_partial`, `c121_full_partial`, `c121_replies`, `c122_beyond_own`, `c122_by_others`, `c122_own`, `c123_rising`, `c123_bound`, `c124_rising`, `c124_bound`, `c124_calls`, `c124_all`, `c125_group_false`, `c125_consumer_false`, `c125_group_partial`, `c125_pubsub_partial`, `c125_node_partial`, `c125_consumer_partial`
