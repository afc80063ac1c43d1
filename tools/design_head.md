# PSync in Lean 4 — design

This file says what is modelled, what is trusted, and how each property of `properties.jsonl` is proved. It is
generated by `tools/gen_design.py` from `tools/design_head.md`, `tools/design_methods.md`, `properties.jsonl`,
`MANIFEST.json` and the output of `#print axioms`.

## Layout

* `lean/Verif/Model/` — transcription of `/repo/PSync`, function by function. Every definition cites file and lines.
* `lean/Verif/Spec/` — small specifications that the theorem statements use. They talk about calls, packets,
  callbacks and sequence numbers. Someone who knows the English property needs only the theorem and these files.
* `lean/Verif/Props/` — the property theorems `cNN_…`, the refutations `cNN_false`, and beside each a concrete case
  that meets the hypotheses.
* `lean/Verif/Proofs/` — lemmas.
* `seeded/LOG.jsonl` — wrong programs (edits of the model) and the theorems that fail on them.

A property that is false of the code keeps its full statement as `Spec.X` next to `cNN_false : ¬ Spec.X`, with a
concrete execution as witness. What does hold is then proved under the suffix `_partial`, and its comment says what
is missing.

## Shape of the model

* `Res α = ok a | throw e | ub u | hang` is the outcome of a C++ call. Undefined behaviour (signed overflow, division
  by zero, access out of bounds, floating-point conversion out of range) and an exception that leaves the handler are
  distinct outcomes. The peeling loop of the IBF difference has no bound in the code; the model gives it a fuel and
  reports `hang` when it is used up. Theorems about termination show that `hang` is not returned for any fuel above
  an explicit number; `c07_false` shows that it is returned for every fuel.
* Names are lists of components (type, bytes). TLV is modelled byte by byte, including non-minimal length fields.
* MurmurHash3 is modelled bit by bit on `BitVec 32`, for a little-endian host.
* IBF cells have an integer count with explicit checks of the `int32_t` range, and `BitVec 32` sums.
* `std::map` and `std::set` are association lists kept in the order of the map (NDN canonical order of names).
* Sequence numbers are natural numbers below 2^64; every addition in the code that can wrap is written `% 2^64`.
* FullProducer, PartialProducer and Consumer are state machines. An event is an API call, an Interest, a segment, the
  completion or failure of a fetch, a timer that fires, or the passing of time. `step` is a total computable function
  from state and event to a `Res` of the new state. What the application does inside a callback is a parameter
  of the event: a list of API calls, which the model executes where the callback is invoked.
* What the class does to the outside (Interest expressed, Data put, callbacks) is appended to a log in the state.
  Three further ghost fields have no influence on the behaviour: the history of the sequence-number table, the replies
  handed to the segmenter, and the publications made.
* Time is a natural number of milliseconds. Timers are deadlines in the state. A timer fires at its deadline or later,
  at most `lag` ms late; `lag` is a parameter of the configuration, so the theorems hold for every bound on lateness,
  and time bounds mention it. Jitter and version numbers are oracles, with the ranges of the code where a theorem needs them.
* Compression is any codec; the law used is `decompress (compress x) = x`, where needed.
* A group (`Spec/Group.lean`) is any number of full-sync nodes. Any Interest can be delivered to any node at any time.
  A fetch may complete with any packets that nodes of the group have ever sent, as long as they form the segments of
  one name and the first one satisfies the Interest. So loss, duplication, delay, reordering and caching are
  included. `Spec/PubSub.lean` is the same for a PartialProducer and a Consumer.
* Group theorems are proved through micro-steps (`Proofs/Micro.lean`, `Proofs/PartMicro.lean`): each event is a sequence of
  small changes of the view (table, replies, log, publications), and invariants are proved per small change.

## What is modelled

| file in /repo | modelled | not modelled |
|---|---|---|
| PSync/detail/iblt.{hpp,cpp} | all | |
| PSync/detail/util.{hpp,cpp} | murmurHash3; compress/decompress as a codec | the compression libraries |
| PSync/detail/state.{hpp,cpp} | all | how ndn-cxx prints a name (any function) |
| PSync/detail/bloom-filter.{hpp,cpp} | all | `std::log` and `std::pow` (parameters of `Libm.ieee`; the rest of the `double` arithmetic is modelled bit by bit in Model/Ieee.lean); `rand()` salts above 128 (oracle) |
| PSync/segment-publisher.{hpp,cpp} | all | signing |
| PSync/producer-base.{hpp,cpp} | all | signing; registration with the forwarder is in Model/Register.lean, elsewhere the producers are registered from the start (C103 carries the theorems over) |
| PSync/full-producer.{hpp,cpp} | all | logging; counters for tests |
| PSync/partial-producer.{hpp,cpp} | all | logging |
| PSync/consumer.{hpp,cpp} | all | logging |
| PSync/common.hpp | constants, MissingDataInfo | deprecated aliases |
| examples/{consumer,producer,full-sync}.cpp | all | logging; components with an equal sign in the names on the command line (any function) |

## Trusted base

* The Lean 4.33.0 kernel. The theorems use no axioms but `propext`, `Classical.choice` and `Quot.sound`; the list per theorem
  is at the end. There is no `sorry`, no `native_decide`, no `bv_decide`.
* That the model says what the C++ code does. The code was read, not executed.
* The behaviour of libraries that are not in `/repo`, as assumed in the model:
  * ndn-cxx TLV: `readVarNumber` accepts non-minimal encodings; a type is not 0 and at most 2^32-1; `Block(buffer)`
    accepts only an element that fills the buffer; `Name(Block)` does not check component types;
    `Component::toNumber` throws unless the value has 1, 2, 4 or 8 bytes; `appendNumber` writes the shortest of
    these; segment components have type 50, version components type 54; `Name(uri)` of `toUri()` is the same name.
  * ndn-cxx names: `get(i)` does not check bounds, a negative index counts from the end; `getSubName(-2)` and
    `getPrefix(-n)` as documented.
  * ndn-cxx `Name(uri)` (Model/CommandLine.lean, only for the command lines of the examples): a scheme and an authority are dropped,
    `%` and two hexadecimal digits are a byte, empty components and "." and ".." throw, a slash at the end is ignored. `std::stoi` and
    `std::to_string` as in the C++ standard.
  * ndn-cxx Segmenter: at least one segment; segments of the given size except the last; FinalBlockId in each.
  * ndn-cxx InMemoryStorageFifo: `find(Name)` returns the leftmost packet whose name extends the given name, without
    regard to freshness; insertion over the limit evicts the oldest packet; `erase` by prefix. Packets are told apart by
    name and digest: the model takes the same content under the same name to be the same packet (a signature that
    does not change), and takes no Interest to end in an implicit digest.
  * ndn-cxx SegmentFetcher: `onComplete` only after all segments up to the FinalBlockId; after `stop()`, no signal of that
    fetcher fires; `stop()` and replacement inside its own callback are safe; `afterSegmentValidated` before completion.
    Its retransmissions are not in the log: an Interest that was sent may be delivered any number of times anyway.
    A fetcher keeps itself alive and calls back until it completes, fails or is stopped, whether or not a pointer to it is kept.
  * ndn-cxx Scheduler: `EventId` converts to false once its callback has started; a cancelled or replaced scoped event
    does not fire.
  * ndn-cxx Face: `put` and `expressInterest` hand the packet to the I/O loop; no callback of PSync or of the application runs
    before they return.
  * ndn-cxx handles: destroying a ScopedRegisteredPrefixHandle removes the Interest filter that was set together with the
    registration; dropping a handle that is not scoped does not. Destroying a Scheduler cancels its events.
  * Default Interest lifetime 4000 ms; `appendVersion()` is the time in milliseconds.
  * C++: `double` is IEEE 754 binary64, rounded to nearest, without extended intermediate precision; where stated, `std::log` and
    `std::pow` have the special values of Annex F of the C standard.
  * C++: `int` has 32 bits, two's complement; `uint32_t`, `uint64_t` arithmetic wraps; signed overflow is undefined.
* Not covered: signatures and validation (the code accepts everything), memory exhaustion, threads (PSync is
  single-threaded), exceptions of the I/O layer, big-endian hosts.
