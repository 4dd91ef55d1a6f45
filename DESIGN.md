# Formal model of romange/helio in Lean 4

Each C++ component is modelled by small, total, computable Lean definitions in
`lean/Verif/<Component>/`. Every definition cites the file and lines it models.
Property theorems live in `Props.lean` (or `<Component>/Props*.lean`), apart from helper
lemmas, and refer to a small separate specification (`Spec.lean` or the top of `Props.lean`).

## Conventions

* Sequential classes: a state structure, one function per method, refinement to an
  abstract specification proved for every history by induction.
* Undefined behaviour (out-of-bounds access, precondition violation, shift too wide) is a
  distinct outcome (`none` / `.ub`), never silently totalised.
* Concurrent classes: a small-step transition system. Each thread has a program counter, each
  step is one atomic operation of the C++ code; invariants are proved by induction over
  all interleavings, for any number of threads. Memory order is sequential consistency
  (trusted simplification, see below).
* Fixed-width arithmetic is `UInt32/UInt64/BitVec` or explicit `% 2^n` where overflow matters.
* If a property is false of the code, the negation is proved with a concrete witness, and a
  `_partial` theorem states the condition under which it holds.

## Trusted base

* Lean 4.33.0 kernel; axioms used: at most `propext`, `Classical.choice`, `Quot.sound`. The axioms
  of every theorem named in MANIFEST.json are listed in AXIOMS.md (output of `#print axioms`).
* The correspondence between the Lean definitions and the C++ text is by reading.
* Sequential consistency for atomics; weak-memory effects are not modelled.
* The kernel (io_uring, epoll, files), the allocator, absl, boost, OpenSSL, zstd are not
  modelled; where they matter they appear as an arbitrary (universally quantified) environment.

## Plan per property

| id | what is modelled | how it is proved |
|----|------------------|------------------|
| C01 | `RingBuffer` with `UInt32` counters and a slot function | refinement to a bounded list, induction over operations; wrap-around through modular arithmetic |
| C02 | `IoBuf` (memory as byte list, offs, size, capacity, generation) | refinement to a byte queue |
| C03 | same | direct theorems on `EnsureCapacity`, `Reserve`, `ShrinkTo` |
| C04 | `SegmentPool` deque of (offset,len) plus the client's live set | invariant by induction over histories; negation for zero-length requests |
| C05 | `flit` encoder/decoder on `Nat`/`BitVec` bytes | round trip for all values, arithmetic proof |
| C06 | `Parse64Safe` with explicit memory reads | negation witness and partial theorem |
| C07 | ZigZag on `BitVec` | arithmetic proof |
| C08 | Vyukov queue small-step | inductive invariant |
| C09 | MPSC intrusive queue small-step | inductive invariant |
| C10 | SPSC queue small-step | inductive invariant |
| C11 | `Histogram` over exact (integer) samples | invariant, merge homomorphism |
| C12 | cuckoo table with the code's hash functions and primes, growth, exhaustive compaction search | invariant (table holds exactly a set of entries) and dictionary refinement; the search by a measure; negation for Compact |
| C13 | arena bump allocation | disjointness invariant |
| C14 | read loops over an arbitrary source oracle | induction over oracle answers |
| C15 | `ApplyExactly` over an arbitrary sink oracle | induction |
| C16 | source/sink classes | refinement to stream of bytes |
| C17 | async state machines | induction over completions |
| C18 | `LineReader::Next` page loop | negation for short reads; partial for full reads |
| C19 | `EventCount` small-step | inductive invariant |
| C20–C24 | fiber synchronisation classes small-step | inductive invariants; negations where false |
| C25–C27 | channel, future, queue small-step | inductive invariants; negations where false |
| C28 | join/terminate busy-bit protocol small-step | inductive invariant |
| C29 | `tq_seq_` sleep/wake protocol small-step | inductive invariant |
| C30 | completion free list | invariant by induction over histories |
| C31 | register table | invariant |
| C32 | on-idle array | negation and partial |
| C33, C34 | scheduler queues, timers, Launch::dispatch, migration | invariant; negations for deadline max, dispatch and migration between queues, remote notifications |
| C35 | sliding window | refinement to sum over a log |
| C36 | url encode/decode | round trip by induction |
| C37 | parser and printer; doubles as multiples of 2^-E, strtod a parameter | accepted language in both directions, exactness ranges; negations |
| C38 | iovec functions | induction over list |
| C39 | PODArray byte layout | refinement for power-of-two sizes; negation otherwise |
| C40 | ReadAllPosix over an arbitrary pread oracle | partial (no short read in the tail helper) and negation |
| C41 | ReadProcFile over arbitrary chunking | partial and negation |
| C42 | FillBuf/WriteSome | FillBuf refinement; negation for WriteSome with several vectors |
| C43 | buffer ring accounting | invariant |
| C44 | ReadFileToString doubling loop | induction |
| C45 | RESP parser | negations and partial |
| C46 | reference counting small-step | inductive invariant |
| C47 | ini parsers | induction over lines |
| C48 | ParseHttpUrl | direct theorem |
| C49 | LinuxFile::Write/Read over an arbitrary lawful pwritev2/preadv2 | induction over the transfers; negation: a read past the end never returns |
| C50 | query splitters as list functions | equations on the pieces |
| C51 | Sync: mutex + condition variable machine with timer moves | negation by a concrete schedule; mutual exclusion still by invariant |
| C52 | EpollSock: kernel socket with an edge-triggered registration, the socket object, one reading and one writing fiber; one step per call, dispatch or outside event | invariant over all histories (a blocked fiber with readiness has an edge pending), conservation of the byte streams; negations for Close alone and for unix sockets |
| C53 | EpollSock: the pending request and the dispatched callbacks are part of the state | life-cycle invariant per callback over all histories |
| C54 | EpollSock: read_notified_, the hook slot and the error callback | invariant along continuations; two negations by concrete histories |
| C55 | EpollSock: Connect split at its suspension | invariant for histories without Shutdown; negations by concrete histories |
| C56 | Tls.Model: the socket with its flags, fibers and requests as one state, the engine and the socket below answer from scripts | invariants over all histories; logs judged by small automata (Tls.Spec) |
| C57 | Tls.Model: asyncRead, asyncWrite, runPending, roleAction, aWDone, aRDone | invariants; writes and safety for histories without deferral, negations with concrete histories otherwise |
| C58 | Tls.Model: flags with their owner, wmark | ownership invariant, flush invariant; negations with concrete histories |
| C59 | Tls.Model: trySend, tryRecv, startFlush, complete | specification of each call and an invariant that ties the drain flag to its request |
| C60 | Tls.Engine: chunk, grow, push, advance | induction over the vectors |
| C61 | RWSpin: the 32 bit word and any number of threads, every atomic operation a step; the blocking calls are repeated attempts. | Invariant by induction over steps: word = 4·(threads that have added READER) + 2·u + (writers), with u = number of upgraders when nobody writes. Exactness of each try call follows from it. Negative results: try_lock can fail with nobody inside, and a promotion can be starved by a single rejected reader. |
| C62 | UPoll: requests with table positions and tags, the submission and completion queues, a nondeterministic kernel, the reference counted callback record | invariants tying the reference count, the armed id and the stage of the request together; an ordering invariant on the log of calls |
| C63 | UPoll: as C62, with entries that are armed again under new tags | an invariant saying that once a removal was answered, the poll reports nothing more unless it was armed again or failed; uniqueness of tags shows that a removal finds only its own poll; two concrete histories refute the unrestricted claims |
| C64 | listener with any number of threads, connections as small state machines, counters as 32-bit words (Listener/Model) | invariant counter = number of connections that have not ended; case analysis of every step |
| C65 | the gate word as a 64-bit number, every access a separate step; callbacks one step each (Listener/Model) | invariant word = attempts * 2^32 + traversals, exclusion, list invariants; induction over runs for the pages; a family of runs for the livelock |
| C66 | one traversal per thread in the listener model | run invariant for a connection that stays on its thread; false for connections that migrate meanwhile: two concrete runs |
| C67 | shutdown loops of the threads, deletion of the lists, destruction of the listener in the same model (Listener/Model) | invariants for runs without migrations during the shutdown; for runs with migrations concrete runs that fail |
| C68 | Verif.Periodic (io_uring) and Verif.Periodic.Epoll: items, table of callbacks, submission and completion queues, timers in the kernel, list of timers to submit again, calls of CancelPeriodic | Invariants over all action sequences; the log of what happens is compared with the number of expiries; a round of the loop is shown to finish from every state |
| C69 | Transition system of callers, workers and Shutdown (Verif/FQPool): bounded queues with one step per attempt, event counts as epochs, the batch loop of Run, the two loads of its condition as two steps, the scan over the workers. | Invariants over all executions: enqueued = run ++ batch ++ queue per worker; a caller that has seen an epoch and failed at its start worker finds it full or draining; a worker that has seen an epoch and an empty queue is empty or about to be notified. False as stated for Shutdown: a task may be lost (C69_task_lost), so the last part is _partial; and Add may sleep beside an idle worker (C69_idle_worker_not_used). |
| C70 | The buffer, the prefetched slice, the offset, the active prefetch, the result and the completion flag; reads and the background task as moves | Invariant that the slice and the finished prefetch hold the file's bytes and lie back to back; one lemma for each path of a read; sequential reading by induction over the sizes; witnesses for the failures |
| C71 | The family's tables, the tables of the threads, calls waiting for the mutex, a running report; the hash is any function | Invariant relating the tables, under the condition that no table shrinks; one-thread pools never shrink; the report by a bound on the sum of what it has and what it has yet to see; witnesses |
| C72 | The scan of the CPU set, the table and the pinning loop as functions; GetNextProactor as a transition system with separate load and store; the awaiting call as a transition system of sending, running and counting; Run, Stop and the destructor as functions on the set of proactors (`Verif/Pool`). | Induction over the CPU set and the thread loop; counting of residues; invariants. Running again is refuted: the old proactors leak and the table lists each thread twice. |
| C73 | Each call is a look with the read lock and, if needed, a second look and an insertion with the write lock; the table and the blocks are lists (`Verif/Pool`). | Invariant: the table is the list of blocks with their numbers, without a duplicate. |
| C74 | A connection is the list of requests written and the number of responses read; writes and reads end as the input says (`Verif/Http`). | Induction over the calls. Refuted for more than one try: each request is written that often and the responses are off from then on. |
| C75 | Transition system with the lists of idle, held and deleted clients and the counter (`Verif/Http`). | Invariant: the three lists are a permutation of all clients. Counting is partial: it needs that nobody closes an idle client. IPv6 domains are refuted. |
| C76 | One round is a function of what happens in it; the loop carries the token's version, the flag for reuse and the connections given back (`Verif/Http`). | Induction over the rounds against a separate list of retried and deciding outcomes. The state of the returned connections is refuted in two cases. |
| C77 | The choice of the node as a function; the hand-over as a transition system with the callback in two steps; the table of sockets as a map with the polled mask (`Verif/Dns`). | Invariants; reverse induction over the notifications. Refuted: the race of the shared channel, an IPv4 address in third place, a changed mask, a socket opened during the loop. |
| C78 | the loop over addresses as a function of the outcomes; Run and Wait as a transition system with a counter | induction over the addresses; invariant that the counter is the number of running loops |
| C79 | sockets as words, the descriptor table and files | invariant that open sockets and table entries correspond one to one |
| C80 | requests with the states prepared and in the kernel, which resolves the descriptor on submission | case analysis of steps by their effect on calls; invariants for ids, descriptors and streams |
| C81 | The dispatch of one request over the table of callbacks, with the authorization functor and Base64 as parameters | Case analysis; refuted for callbacks registered on built in paths, which are never called |
| C82 | The two loops over an arbitrary parser whose answers do not change with further bytes | Induction over the stream and over the pieces, against a relation that reads the whole stream; refuted if the buffer call is made twice |
| C83 | The check over canonical paths as lists of components, with what the name leads to at the check and at the opening as two inputs | Induction over the paths; partial, because a link that changes in between gives another file (witness) |
| C84 | The view over a memory with string objects and heap blocks; std::string as libstdc++ moves it | Invariant over all histories: blocks have one owner, and each view is a copy or points into the block of its string; a plain string_view is refuted by a witness |
| C85 | the generators, the three algorithms, the wide division by instruction and by Knuth's algorithm D, the high word of a product in four parts, FromHash | magic multiplier: M*d = 2^p + e with n*e < 2^p gives the quotient; digit by digit invariant for the portable division |
| C86 | memory with timestamps and views (Verif/RelAcq); tq_seq_ and the cell sequence numbers access by access | invariant: each message of tq_seq_ since the last reset carries the announced tasks; the compare-and-swap reads the message that was loaded; false for the store of 0, true for a read-modify-write |
| C87 | indices as atomic locations over Verif/RelAcq, records as non-atomic locations that count their accesses | invariant: every index message carries the accesses to all records it hands over; for each weaker order a run with a race |
| C88 | the three functions access by access over the view-based release/acquire memory of C86; the storage of a cell is a non-atomic location with race detection; the four orders are parameters | invariant over all runs: the owner of a cell has seen the last message of its sequence number and every earlier access to its storage; the sequentially consistent invariant of C08 is carried along; a racing run for each order made relaxed |
| C89 | The queue of C09 over the release/acquire memory of C86, access by access, with the orders as parameters (`Verif/MpscRA`). | False of the code: the link store is relaxed, and a stale link can be followed (`C89_code_fails`). Proved for a release store of the link by an invariant that joins that of C09 to the views of the threads; each other order is shown to be needed. |
| C90 | The lock of C61 over the release/acquire memory of C86, with guarded non-atomic data (`Verif/RWSpinRA`). | Invariant: all operations are read-modify-writes, so they form one release sequence; its last message has all writes in its view while nobody writes, and all reads of threads that hold nothing. Each order is shown to be needed by a run that races without it. |
| C91 | The mutex over the release/acquire memory of C86, with guarded non-atomic data and the operations of its event count (`Verif/SharedRA`). | Exclusion for all orders by an invariant. Freedom from races for release unlocks as in C90; for the relaxed unlocks of the code runs with a race. |
| C92 | The counter on its event count over the release/acquire memory of C86, with non-atomic data of the workers (`Verif/BlockRA`). | Invariant: the messages of both atomics form one release sequence each; the notification's message and all later ones carry the last value of the counter; the lock of the wait queue carries the notification. Each of the four orders used is shown to be needed. |
| C93 | The flag word of a fiber with its terminated and busy bits, the joiners' list and the fiber's data as non-atomic locations, over the release/acquire memory of C86 (`Verif/JoinRA`). | Invariant over the contiguous messages of the flag word: value from the program counters, the lock's owner has seen the list. With a release in Terminate every later message carries the fiber's view; without it, runs with a race. For the code: woken joiners and late joiners are ordered. |
| C94 | The counter over the release/acquire memory of C86, with one non-atomic location per thread for what it does with the object (`Verif/RefRA`). | Invariant: the last message of the counter is the number of handles, and what each thread did is in that message's view or in the view of a thread with a handle. Race freedom iff release and fence. |
| C95 | the tests of has_value, the fences, Resolve and the value over release/acquire memory (FutRA) | invariant on the only message with value 1, its view and the number of winners; witness of the race of GetFor; the fences are needed and sufficient |
| C96 | BlockRA without the fence | witness of a race; no race with the fence (C92_no_race) |
| C97 | val_ message by message, the wait queue under its lock, an arbitrary client, over release/acquire memory (ECRA) | invariant: release sequence of val_ carries the view of each notification; later notifications see the waiter; witnesses that acquire in prepareWait and release in the notification are needed |
| C98 | S3File: the writer with its buffer and number of parts, the service's parts by number, an answer per request | Invariant over all histories: acknowledged parts and buffer make up what was taken; then per call |
| C99 | S3File: the reader with its buffer, position and size; the service as a function of the range asked for | Invariant: the buffer is a prefix of the object at the position; induction on the answers; witnesses for the failures |
| C100 | CloudRead: the three readers over an oracle for the request and for each call of the HTTP parser | Invariant: what is left of the body is the object from the position on; witnesses for the failures |
| C101 | The string builders over the models of the encoder and of the query parser. | A relation between a target and the decoded segments and arguments, shown to be single valued; induction over the name. Amazon's encoding is written down separately. |
| C102 | A transition system: threads that go from file to file, one step per file under its mutex; the C library's buffer, the files on disk with the second in their names, the results of the calls as choices of the environment. | An invariant of each file on which no call has failed, and of each thread's position. |
| C103 | The read loop over an abstract decoder with the contract of ZSTD_decompressStream. | Induction over the upstream reads; a small decoder shows that the contract can be met. |
| C104 | The list with its pointers over a memory of nodes; Format over values of any depth; the page. | A linking invariant kept by create and destroy (C104_registry); mutual structural induction over values and maps (C104_value), induction over the variables (C104_page_partial). Witnesses that quotes in a text and doubles that are not numbers break the page (C104_injection, C104_nan). |
| C105 | Requests as a method, a target and a list of headers; the three Sign functions with the hash functions and base64 as parameters | The specification is the service: it reads the claim in the request, recomputes the canonical request from the request alone and compares; sorting and header algebra lemmas; signing again by equality of all headers but Authorization |
| C106 | Replies as trees of JSON or XML, the functions that read them, and the loop over the pages | A service is a function from tokens to replies; that it serves a list of pages is an inductive relation; induction on it |
| C107 | A transition system with one step per access to the flag or to the credentials | Invariant over all executions: the flag is set iff exactly one fiber is in the refresh; what each fiber knows by its place |
| C108 | Init and the three sources as functions of the environment and of the metadata service's reply | connection strings and URLs written out from their parts; case analysis of the sources |
| C109 | both classes in full, over 64-bit vectors | the step is linear over GF(2): its powers are polynomials modulo its characteristic polynomial, computed by the kernel by repeated squaring; the period from the prime factors of 2^128-1 and an inverse for each; the mixing of SplitMix64 is one to one; where jump leads by a discrete logarithm checked by the kernel; the closest meetings by two convergents of its continued fraction |
| C110 | the conversions, the aggregator and its queries over natural numbers with the 32 and 64 bit wrapping of the code; the counter is an input | induction on the history of measurements; the stored count is the time of the last millisecond modulo 2^32 |
| C111 | the entry as a record with the fields that share memory as one; the kernel's reading of it from the documentation of io_uring | case analysis of the requests |
| C112 | the entries each operation submits, over the model of the table of direct descriptors | the reachable tables of C31; case analysis of the operations |
| C113 | byte-level model of the loop, tail and finalizer with out-of-range reads as failures; published function as a separate recursion | induction over blocks; injectivity of each mixing step |
| C114 | the bytes each HashAppend passes on | induction over the tuple; counterexample for adjacent strings and optionals |
| C115 | the list of registrations, the count and the two loops, one function call per step | invariant over all interleavings; the serial case exactly; witnesses with two threads |
| C116 | machine with subscriptions, keys, the wait queue and notifiers | inductive invariant over all interleavings; witnesses for the gap of persistent subscriptions, for notify and for Drop |
| C117 | the signal map, the dispositions, arrivals that dispatch a task which reads the map again when it runs | invariant: the map agrees with the disposition and with every pending task unless a signal was cleared in between; FIFO per proactor; witnesses for the clearing in between, for another callback and for a signal number out of range |
| C118 | iterators as a state with dereference, increment and comparison, where dereferencing may change the state; a for loop over a range | simulation of the loop over the adapter by the loop over the inner range; induction over the rounds; witness for dereferencing twice |
| C119 | any number of proactors with bounded queues, callers in the phases of DispatchBrief, the event count as epochs, local calls nested, dispatchers in the loop of Migrate | invariant: a caller that sleeps, or is about to with the current epoch, leaves a task queued, a run of tasks before its notification or a local call; ownership of tasks; a closed set of states for the deadlock |
| C120 | TlsHand: Accept and Connect as a loop over an arbitrary engine and lists of answers of the socket below, with a log | invariants of the log through the loop by induction on rounds; a counterexample for alerts |
| C121 | VarzAvg: a map of two sliding counters per thread, on top of the model of the sliding counter (C35) | induction over the history with the representation invariant of C35 per thread and key |
| C122 | SockBase: fd_ with its flag bits as an integer, operations with the kernel's answers, a log of system calls | invariant over histories relating fd_ to the log; witnesses for the disagreements |
| C123 | Hooks: active fiber of each thread, hooks, a log of events | the events of each fiber are accepted by an automaton; induction over histories |
| C124 | SchedCount: the lists and counters of each scheduler, the life of each fiber | invariant over histories |
| C125 | FiberHandle: objects, fibers and what was joined or detached | invariant over histories; case analysis for crashes |
| C126 | Zipf: the formulas over the reals; the conversion of the smallest item to double | real analysis: bounds of the power, monotonicity, the inverse function |
| C127 | AwsHttp: the adapter, the loop of asio::write, MakeRequest as a function of the answers | induction over the answers of the socket, case analysis |
| C128 | transition system with a clock: rounds, budgets, runtime counters, the restart of the count, the choice between yielding, queueing and sleeping | invariants over reachable states with counters for waiting, totals and restarts; contracts of each preemption point; a loop of callbacks that starves background fibers |
| C129 | sscanf with the format of the code, the version tests of Init, the ring size check | decimal round trip, case analysis over the version tests against a table of when features appeared |
| C130 | the provider list as a function of the environment, the search loop with a log of who was asked, the address built from parameters | induction over the chain and over the parameters, against a rank of sources |
| C131 | transition system of request threads over the shared suffix and the profiler | invariant for requests one at a time; invariant for the response in every interleaving; two concurrent requests as a counterexample |
| C132 | The pool state (backing address, SegmentPool, mapped bytes) with explicit 64 and 32 bit conversions; mmap and the kernel's answer are inputs. | The invariant of C04's pool, with slices as the images of its segments; size 0 and sizes of 16 TB and more are refuted with witnesses. |
| C133 | The two functions of the target of /proc/self/exe, with the 2048 character buffer. | Case analysis and list lemmas; long paths and files really called '... (deleted)' are refuted. |
| C134 | A transition system of one socket, its user and the kernel; a completion is processed segment by segment so that the callback can call the socket in between. | An invariant over all histories (data given plus data pending is data received; registrations are ends plus requests); refutations from every reachable state with a hook. |
| C135 | SwitchSetup as a function of the thread's statistics, the fibers' time stamps and the counter, with 64 and 32 bit wraps. | Induction over histories: the state agrees with quantities read from the history alone; refutations for a counter that goes back, runs of 71 minutes, eight switches and an unknown frequency. |
| C136 | IdleEnd, IdleRatio, RunL2Tasks and ShouldPollL2Tasks of one thread, with 64 bit wrap-around in the idle measurement | induction over the history of waits (a window of the history) and over the list of calls; witnesses and universal refutations for a counter that goes back |
| C137 | the choice of the unit, the number of hundredths and the CHECK; rounding of ties is a parameter, the digits of the exponent notation are left out | case split on the unit with linear arithmetic; witnesses for the smallest integer and for all numbers just below a unit |
| C138 | StartTable, Row and EndTable byte for byte; the constant pager is a parameter | the text is an injective function of header and rows (induction over cells and rows) when no cell has a <; a universal refutation otherwise |
| C139 | the choice of the unit and the adjusted value, for whole nanoseconds and exact arithmetic | case split with linear arithmetic; refutations for all durations in the bad ranges |
| C140 | ExecuteOnFiberStack, ExecuteOnAllFiberStacks and SwitchTo of one thread, with contexts as handles and calls on top of suspended stacks | invariant over all histories, and a simulation between a history and the same history without the runs |

## What is modelled and what is not

Every model file starts with a list of its simplifications. Theorems about concurrent code hold for every
interleaving of the listed atomic steps and any number of threads or fibers.

| module | source in /repo | left out |
|--------|-----------------|----------|
| RingBuffer | base/ring_buffer.h | element destructors |
| IoBuf | base/io_buf.{h,cc} | alignment of the block |
| SegmentPool | base/segment_pool.{h,cc} | |
| Flit | base/flit.h | compilations other than "the wide shift yields some fixed word" |
| Spsc, Mpmc, Mpsc | base/ProducerConsumerQueue.h, mpmc_bounded_queue.h, mpsc_intrusive_queue.h | weak memory, 64-bit position wrap |
| Histogram | base/histogram.{h,cc} | double rounding, NaN, infinities (exact rationals instead) |
| Arena | base/pmr/arena.{h,cc} | Swap, destructor |
| PodArray | base/pmr/pod_array.h | 64-bit byte counts wrapping, self-ranges |
| Cuckoo | base/cuckoo_map.{h,cc}, cuckoo_map-internal.h | libdivide (its remainder is used; see Divide), 32-bit bucket numbers, float rounding (arbitrary growth), serialization access |
| Io | io/io.{h,cc}: Source, Sink, ReadAtLeast, ApplyExactly, Bytes/Buf/Prefix sources, String/Buf sinks, async loops, iovec helpers | zstd, FileSource |
| Lines | io/line_reader.cc: LineReader | CsvReader |
| Text | util/http/http_common.cc, util/cloud/utils.cc (URLs, ini), io/line_reader.cc ini parser | |
| Proc | io/proc_reader.cc ReadProcFile | |
| Posix | io/file.cc, io/file_util.cc, util/fibers/uring_file.cc | open flags, fsync |
| Human | strings/human_readable.cc byte sizes | strtod itself (a parameter), HumanReadableNum, HumanReadableElapsedTime |
| Url | strings/escaping.cc, util/http/encoding.cc | |
| Sliding | util/sliding_counter.h | thread-local merging, overflow of the counter type |
| Cloud | util/cloud/utils.cc, aws/s3_storage.cc, gcp/gcs_file.cc, azure/storage.cc writers | requests, authentication, XML |
| EventCount, BlockingCounter, Future, SharedMutex, Sync, Barrier | util/fibers/synchronization.{h,cc}, event_count.h, future.h, detail/wait_queue.cc | weak memory (ECRA and others); callback waiters of subscribe (Subs) |
| Channel, FiberQueue | util/fibers/simple_channel.h, fiberqueue_threadpool.{h,cc} | the thread pool around the queues |
| Join | util/fibers/detail/fiber_interface.cc (Join, Terminate, reference count), fibers.cc | names, tracing, stack checks |
| Sched | util/fibers/detail/scheduler.cc | cycle budgets (become choices), the context switch itself |
| Proactor | proactor_base.{h,cc}, epoll_proactor.cc, uring_proactor.cc wake-up protocol | queue capacity |
| OnIdle | proactor_base.cc 166-249 | callbacks that add tasks |
| Completion | uring_proactor.cc, epoll_proactor.cc completion tables | kqueue branches |
| BufRing, DirectFd | uring_proactor.cc buffer rings, direct descriptors | |
| Resp | examples/pingserver/resp_parser.{h,cc} | calls after an error |
| EpollSock | util/fibers/epoll_socket.{h,cc}; Shutdown, TrySend, TryRecv of fiber_socket_base.cc | Accept, migration, AsyncReadSome, kqueue, callbacks that call back into the socket, reuse of arm indices (C30) |
| Tls | util/tls/tls_socket.{h,cc} (WriteSome, RecvMsg, Shutdown, TrySend, TryRecv, upstream handling), util/tls/tls_socket_async.cc, tls_engine.cc (as a scripted oracle), util/tls/iovec_utils.cc (AdvanceIovec) | OpenSSL; handshake (Accept, Connect: see TlsHand; InitSSL), Close, notification of data, error categories; the BIO ring (PeekOutputBuf shows the whole queue); one fiber per direction and one in Shutdown |
| Reader-writer spin lock (RWSpin) | base/RWSpinLock.h 142-260 | memory order (sequentially consistent here), sched_yield, the holder classes, the disabled ticket lock |
| Polls on io_uring (UPoll) | util/fibers/uring_socket.cc 68-80, 391-453; uring_socket.h 93-119; uring_proactor.cc 279-321, 369-403, 580-656 | choice of the free position (Completion), 32 bit overflow of tags, the receive hook itself, callbacks re-entering before the poll is armed again |
| Listener | util/fibers/listener_interface.cc (RunAcceptLoop, RunSingleConnection, TraverseConnections, TraverseConnectionsOnThread, Migrate), util/listener_interface.h, the order of shutdown and destruction of util/accept_server.cc | Sockets, accept errors, SetMaxClients' file limit, hooks other than start and close; memory order (sequentially consistent); iterators of the thread-local map across a sleep; the migration of the fiber itself; connection destructors do not suspend. |
| Periodic | util/fibers/proactor_base.cc 251-280, uring_proactor.cc 279-367 (the part for periodic tasks), 688-728, epoll_proactor.cc 340-455, 475-534 (the part for periodic tasks, Linux) | FreeBSD timers, periods, records still registered when the proactor is destroyed (leaked) |
| FiberQueueThreadPool | util/fibers/fiberqueue_threadpool.h 133-226, .cc 69-112 | thread start and names, hardware_concurrency, blocked_submitters_, results moved through ResultMover, calls after Shutdown |
| FiberFile | util/fibers/fiber_file.cc 26-65, 102-286 (FiberReadFile with a prefetch buffer) | the path without a buffer, statistics, the second and later parts of a vectored read (the code ignores them), ranges of no bytes, destruction without Close, which errno is reported |
| Metrics | util/metrics/family.cc 72-108, 112-180, util/metrics/metrics.cc 33-84 | the list of families and their descriptors, doubles (integers instead), summaries and histograms, calls from outside of a pool (the code reads a null pointer) |
| ProactorPool (Pool) | util/fibers/proactor_pool.cc 125-299, util/proactor_pool.h 69-200 | thread creation and names, CPU masks beyond the list, the lock of the strings (one step, C61), how a function gets to a thread (C27, C29), FreeBSD |
| HTTP client, client pool, request sender (Http) | util/http/http_client.h 90-159, http_client.cc 54-94, 164-194, https_client_pool.cc, util/cloud/utils.cc 24-54, 149-153, 177-278 | Boost.Beast (what a read or write ends with is an input), DNS, the sockets, OpenSSL, SimpleAtoi's blanks and signs, credentials providers (the default ShouldRefreshToken only), debug builds' abort on an unexpected status |
| DNS glue (Dns) | util/fibers/dns_resolve.cc 53-252 | c-ares itself (its answers and notifications are inputs), its timeouts, ares_inet_ntop, the proactors' polls (C63) |
| AcceptServer (Accept) | util/fibers/accept_server.cc 24-115, 126-202, util/fibers/fiber_socket_base.cc 122-184 | getaddrinfo (its answer is an input), signals, what an accept loop does (Listener), calls from several fibers |
| io_uring socket (USock) | util/fibers/uring_socket.{h,cc} (Create, Accept's result, Connect's descriptor, Close, WriteSome, AsyncWriteSome, AsyncReadSome, RecvMsg, Recv), util/fibers/fiber_socket_base.cc 76-98, 184-202, util/fiber_socket_base.h 173-256 | direct descriptors (disabled in the code), Accept's polling, timeouts beyond being errors, poll-first hints, Detach, TrySend and TryRecv, receive hooks (UPoll has the polled ones) |
| HttpSrv | util/http/http_handler.{h,cc}: ParseFromBuffer, HandleRequests, HandleSingleRequest, CheckRequestAuthorization, HandleRoot, RegisterCb, FilezHandler | Boost.Beast's parser is any function whose answers further bytes do not change; contents of the pages; the limit of the buffer in HandleRequests; Base64 is a parameter; the profile folder itself is taken as free of links; keep-alive; lifetime of the registered paths (the table keeps views) |
| Sso | base/string_view_sso.h: constructors, size, substr, conversion to string_view | std::string's moves follow libstdc++ (15 bytes in the object); searching and comparing (they are string_view's); null pointers; pointers obtained from a short view, which end with the view |
| Divide | base/libdivide.h (unsigned, scalar), cuckoo_map-internal.h FromHash | signed and vector variants (unused in the repository) |
| RelAcq | C++ intro.races, atomics.order (relaxed, acquire, release, release sequences, acquire fences, data races) | sequential consistency, release fences, consume, load buffering |
| WakeRA | proactor_base.h WakeupIfNeeded, main loops of epoll_proactor.cc and uring_proactor.cc, over RelAcq | remote-ready queue, cells of the task queue beyond their sequence numbers, wrap-around of tq_seq_ |
| SpscRA | base/ProducerConsumerQueue.h 56-113 over RelAcq | isEmpty, isFull, sizeGuess (consume loads), destructor, construction |
| MpmcRA | base/mpmc_bounded_queue.h 45-156 with memory orders | observers (empty, is_full, size); wrap-around of positions |
| MpscRA | base/mpsc_intrusive_queue.h, util/fibers/detail/fiber_interface.h 212-219 | `Empty`; seq_cst orders; the synchronisation with which the client hands a node on (the flags of a fiber) is assumed |
| RWSpinRA | base/RWSpinLock.h 142-270 | As RWSpin, without its sequential consistency; the guarded data is one non-atomic location |
| SharedRA | util/fibers/synchronization.h 319-357; the accesses of util/fibers/event_count.h to `val_` | The wait queue and its spin lock: a fiber that slept and was woken is synchronised by them in the code; fibers of one thread |
| BlockRA | util/fibers/event_count.h 33-221, util/fibers/synchronization.h 359-431, util/fibers/synchronization.cc 134-139 | `Start`, `Cancel`, waits with a time limit, `OnCompletion`; a counter that is started again; the spin lock is assumed to be a lock; the scheduler |
| JoinRA | `FiberInterface::Terminate`, `FiberInterface::Join` (util/fibers/detail/fiber_interface.cc 286-312, 369-397), memory orders | that a fiber resumed through the scheduler is synchronised with the one that resumed it is an assumption; the third flag bit is only a read-modify-write without effect; lifetime |
| RefRA | `intrusive_ptr_add_ref`, `intrusive_ptr_release` (util/fibers/detail/fiber_interface.h 171-196, util/fibers/synchronization.h 223-232), memory orders | passing a handle to another thread is assumed to synchronise them; the accesses of different threads while they share the object; the jump to the end of the fiber's stack in the destructor |
| FutRA | util/fibers/future.h 16-60; synchronization.h 412-431, 470-485 (fences) | Any thread may do any operation of the event count at any time (who is woken is C19 and C26); the reference count of the shared state (C94) |
| ECRA | util/fibers/event_count.h 33-165; synchronization.h 359-431; synchronization.cc 12-53; detail/wait_queue.cc 34-79 | Persistent waiters and subscriptions; one key per thread; the section under the spin lock is one step; suspension and resumption of fibers (C21) |
| S3File | util/aws/s3_write_file.{h,cc}, util/aws/s3_read_file.{h,cc} | the AWS SDK, entity tags and checksums, the parsing of Content-Range, the kinds of errors |
| CloudRead | util/cloud/gcp/gcs_file.cc 97-130, 241-298, util/cloud/azure/storage.cc 199-234, 264-335, util/cloud/aws/s3_storage.cc 195-280 | the HTTP parser and the connection, retries of the request (see Http), the debug check of the S3 offset |
| CloudUrl | util/cloud/gcp/gcs_file.cc, util/cloud/gcp/gcs.cc, util/cloud/azure/storage.cc, util/cloud/aws/s3_storage.cc, util/cloud/aws/aws_creds_provider.cc (targets, canonical path and query) | headers, dates, hashes and keys of the signature, the choice of the endpoint, the parsing of the replies |
| FileLog | base/file_log_sink.cc, base/file_log_sink.h | Init and the search for a directory, the symbolic links, the format of lines and names, a clock that goes back |
| Zstd | io/zstd_sinksource.cc, io/zstd_sinksource.h | the decoder of the library, of which only the contract is assumed (as a hypothesis of the theorems) |
| Varz | base/varz_node.cc 16-76, base/varz_value.h, util/http/status_page.cc (the JSON form) | The HTML form of the page, printing of doubles (its text is given), VarzMapAverage, VarzQps; the lock makes every operation one step; base/varz_node.h warns that the list is invalid after a destruction, the model shows that only the unused back pointer of the first node dangles |
| CloudSign | aws_creds_provider.cc 39-53, 588-670; azure.cc 66-126, 194-213, 527-558; gcs.cc 312-314; utils.h 55-62 | the hash functions, base64, the clock and its formatting; locks around the token |
| CloudList | gcs.cc 340-507; azure/storage.cc 34-150, 427-507; s3_storage.cc 114-190, 407-480 | the parsers of JSON and XML, of numbers and of times; the targets of the requests are C101 |
| AwsRefresh | aws_creds_provider.cc 41, 531-572, 672-695; aws_creds_provider.h 20-31 | the fetches themselves (their outcome is arbitrary); the lock around the credentials, which makes each access one step; one clock for two |
| AzureCreds | util/cloud/azure/azure.cc 36-47, 126-192, 215-525, 560-565; util/cloud/azure/creds_provider.h | the JSON parser, the HTTP client, logs; Init on a thread without a proactor (CHECK); the race of RefreshToken with Sign on account_info_ |
| Random | base/random.h | nothing of the two classes |
| Cycle | base/cycle_clock.h, base/init.cc 65-107 | the reading of the counter and of its frequency; floats of the share are taken as exact |
| Sqe | util/fibers/submit_entry.h, util/fibers/uring_file.cc 79-117, 300-480 | the waiting for completions (Completion), the loops of Read and Write (Io, C49), opening and StatX |
| Hash | base/hash.cc, base/hash.h | xxhash itself (a parameter) |
| Init | base/init.cc, base/init.h | flags, logs, signal and terminate handlers |
| Subs | util/fibers/event_count.h, util/fibers/synchronization.h (subscriptions), util/fibers/detail/wait_queue.cc | wrap of the epoch (C19), memory orders (C97) |
| Signals | `util/fibers/proactor_base.cc` 37-66, 300-338 | the middle of a registration, async-signal safety of Dispatch |
| Iter | `base/iterator.h` | wrap around of the index |
| TaskQ | `util/fibers/proactor_base.h` 332-416, `proactor_base.cc` 282-298, the task part of the loops of `epoll_proactor.cc` and `uring_proactor.cc` | the queue's cells (Mpmc), the event count's word (EventCount), sleep in the kernel (Proactor) |
| TlsHand | util/tls/tls_socket.cc 79-88, 126-200, 384-508; util/tls/tls_engine.cc 68-113 | what OpenSSL does (an arbitrary function), the bounded buffers of the engine, other operations of the socket in progress during the handshake, logging |
| VarzAvg | util/varz.h 18-76; util/fibers/varz.cc 18-87; util/sliding_counter.h 117-156 | hash order, floating point (averages are rationals), clocks that step back between threads, calls outside the pool, VarzCount, VarzFunction |
| SockBase | util/fibers/fiber_socket_base.cc 25-271; util/fiber_socket_base.h 171-273; util/fibers/epoll_socket.cc 159-170, 196-214 | addresses, LocalEndpoint and RemoteEndpoint, error numbers of system calls, the file of a unix socket, direct descriptors (see USock), pending requests (see EpollSock) |
| Hooks | util/fibers/detail/fiber_interface.cc 433-486, 523-530, 608-615, fiber_interface.h 38-54, 257-259 | cycle counts, hooks that switch, ExecuteOnFiberStack, the atomic section around the call |
| SchedCount | util/fibers/detail/scheduler.cc 155-201 (the check), 327-368; fiber_interface.cc 286-291, 349-351, 421-431 | Migrate by a fiber that is not a worker (would make the counters wrap), reference counts (RefRA) |
| FiberHandle | util/fibers/fibers.h 27-115, fibers.cc 14-43, fiber_interface.cc 369-373 | waiting in Join (Join, JoinRA), reference counts (RefRA), use of a handle by several threads at once, Start |
| Zipf | base/zipf_gen.h | rounding of double except for min; the distribution object of the standard library |
| AwsHttp | util/aws/http_client.cc 63-261, util/asio_stream_adapter.h | Beast (serialization, parsing; the missing special treatment of responses to HEAD), keep-alive options, method names, URL |
| Share | scheduler.cc Run, RunReadyFibersInternal, accounting of Preempt, UpdateConfig | wrap at 2^64, Launch::dispatch and Migrate in a round, the main fiber before the loop starts |
| Kernel | proc_util.cc GetKernelVersion; uring_proactor.cc Init (version tests, ring size) | the MSG_RING probe, feature bits returned by the kernel, flag uring_disable_iowait, registrations that fail |
| AwsConf | credentials_provider_chain.cc; s3_endpoint_provider.cc | the providers of the AWS SDK, tokens for the container endpoint, logging |
| Profilez | profilez_handler.cc | pprof and its failure (ignored by the code), reading /profilez?heap (does nothing), data races as undefined behaviour |
| RegBuf | util/fibers/uring_proactor.cc:66, 138-141, 405-463, util/fibers/uring_proactor.h:24-27, 234-237, util/fibers/uring_types.h:13-16 | the buffer index (always 0), the I/O that uses the slices; the kernel refuses a second registration and more than 1 GB |
| ProgName | base/logging.cc:26-71 | the macOS and FreeBSD branches, MyUserName, ConsoleLogSink |
| RecvHook | util/fibers/uring_socket.cc:68-103, 455-552 (multishot mode), util/fibers/uring_socket.h:131, util/fiber_socket_base.h:119-126 | the poll mode (UPoll), the buffers of the ring (BufRing), the flags of the request, the debug checks |
| SwitchStat | util/fibers/detail/fiber_interface.cc:179-195, 263, 522-567, 588-592, 622-654, util/fibers/detail/fiber_interface.h:284-293, 333-342 | the switch hooks (SwitchHook), the warning about long runs, the wrap of the accumulated 64 bit counters |
| Load | util/fibers/proactor_base.cc (IdleEnd, RunL2Tasks, ShouldPollL2Tasks), proactor_base.h (IdleRatio) | busy cycles, the tasks themselves, the conversion to double, overflow of the counter plus 2.56 ms |
| HumanNum | strings/human_readable.cc (HumanReadableNum) | digits of the exponent notation, HumanReadableElapsedTime; rounding of ties is a parameter |
| HtmlTable | util/html/sorted_table.cc (StartTable, Row, EndTable) | HtmlStart and the pager, which are constant text; how a browser reads the text |
| Elapsed | strings/human_readable.cc (HumanReadableElapsedTime) | rounding of products and quotients to doubles, fractions of a nanosecond, NaN and infinity, the digits |
| OnStack | util/fibers/detail/fiber_interface.cc (ExecuteOnFiberStack, SwitchTo), scheduler.cc (ExecuteOnAllFiberStacks) | end of fibers, switch hooks, the address sanitizer, what the function prints; resume_with is modelled as documented |

Not modelled at all: OpenSSL (an arbitrary function in Tls and TlsHand), the HTML of the HTTP pages, c-ares, Boost, parsers of JSON and
XML, base/logging, command line flags, stack traces, zstd and other third-party code.

## Where the code disagrees with the property

Each line is a theorem: the property as stated is refuted by a concrete input, schedule or history.

| property | what happens | theorems |
|----------|--------------|----------|
| C04 | (limit needed) zero-length requests overlap | zero_length_request_overlaps |
| C05 | the decoder shifts by the word width; a 32-bit decoder misreads 64-bit code | parseT_undefined, parseT_wrong_with_x86_shl, parse64Fast_misreads_encode32, encodingLength_overestimates |
| C06 | reads outside the range | parse64Safe_reads_out_of_bounds |
| C11 | max of negative samples | C11_negative_max |
| C12 | a failed Compact has dropped a key; Insert never relocates; constructor allocates less; iterator reads outside | C12_compact_loses, C12_compact_false, C12_never_relocates, C12_capacity_short, C12_iterator_out |
| C13 | requests of 4 GiB get too small a block | C13_truncated |
| C16 | an empty first vector looks like end of file | C16_prefix_empty_entry_looks_like_eof |
| C17 | AsyncRead at end of stream reissues for ever | C17_eof_never_completes, C17_empty_array_ub |
| C18 | lines are cut at short reads, CR kept, limit not applied | C18_short_read_cuts_line, C18_cut_crlf_keeps_cr, C18_limit_not_applied |
| C19 | (limits needed) notify of one of two waiters, epoch wrap | C19_notify_one_two_waiters, C19_epoch_wrap |
| C23 | a Barrier can be used after Cancel, a waiter is lost | C23_cancel_not_final, C23_waiter_lost, C23_cancel_races |
| C24 | try_lock_shared strands a writer | C24_try_lock_shared_strands_writer |
| C25 | a pusher (or one of several poppers) stays asleep | C25_pusher_left_blocked, C25_popper_left_blocked |
| C26 | only one of several waiters is woken | C26_getref_two_waiters_hang, C26_getfor_steals_wakeup, C26_done_two_waiters_hang |
| C27 | a task added during Shutdown is lost | C27_task_lost |
| C29 | work is hidden behind a stalled producer | C29_other_producer_delays, C29_hidden_behind_claim |
| C30 | epoll event of an old registration reaches a new callback; a multishot callback is moved while it runs | C30_epoll_wrong_callback, C30_uring_multishot_moved |
| C31 | a kernel refusal loses an index | C31_refusal_loses_index |
| C32 | removal outside the loop leaves the cursor out of bounds; ids are reused | C32_remove_then_run_ub, C32_id_reused |
| C33 | dispatch between queues links a linked hook; Migrate from a background fiber crashes | C33_dispatch_from_background_ub, C33_dispatch_to_background_ub, C33_migrate_from_background_crashes |
| C34 | deadline max always times out; remote notification lost to the timer | C34_max_always_timeout, C34_max_refuted, C34_remote_notify_lost |
| C36 | undefined behaviour on empty and huge texts; non-ASCII bytes | C36_empty_ub, C36_huge_ub, C36_http_encode_ub |
| C37 | odd numbers in [2^52, 2^53) off by one; overflow; reads past the view | C37_off_by_one, C37_overflow_undefined, C37_reads_past_view, C37_odd_suffix, C37_no_round_trip |
| C39 | element sizes that are not powers of two overflow the allocation; zero-size constructors; resize_fill; move | C39_other_sizes_overflow, C39_empty_ctor_overflows, C39_base_resize_fill_refuted, C39_move_wrong_resource |
| C40 | a short read in the tail writes past the vector | C40_short_tail_overflows |
| C41 | a line without separator hides the rest; last line lost | C41_line_without_separator_hides_rest, C41_last_line_lost |
| C42 | WriteSome with several vectors writes the first one repeatedly | C42_write_some_refuted |
| C43 | (limit needed) rings above 4 GiB alias | C43_large_ring_aliases |
| C45 | cut arguments overflow, dangle; a lone last byte is not recognised | C45_overflow, C45_dangling, C45_lone_byte |
| C46 | (limit needed) 2^32 handles | C46_overflow |
| C47 | a header followed by a comment is lost | C47_header_comment_lost |
| C48 | IPv6 hosts and queries are split unlike RFC 3986 | C48_ipv6_cut, C48_query_in_host |
| C49 | a read past the end never returns | C49_file_read_past_end_hangs |
| C51 | a timed wait corrupts the wait queue | C51_timed_wait_corrupts |
| C52 | Close alone does not release a blocked reader; on unix sockets the peer's close hides its last bytes behind an error | C52_close_hangs, C52_eof_hides_data |
| C54 | a hook registered after a partial read, or after an event that woke a writer, is not told about waiting bytes | C54_hook_misses_leftover, C54_hook_forgotten |
| C55 | Shutdown makes a pending Connect report success; Close and a timeout close the descriptor twice | C55_connect_lies, C55_double_close |
| C57 | An asynchronous write deferred behind another request's write is pushed into the engine again by RunPending: its bytes reach the peer twice | Tls.C57_deferred_write_sent_twice |
| C57 | AsyncReadProgressCb runs the deferred request before it commits the input: a deferred request that reads overwrites it | Tls.C57_deferred_read_overwrites |
| C57 | Two requests deferred behind a blocking call fail a CHECK; so do AsyncWriteSome during a background flush of TrySend, and TryRecv during an asynchronous write | Tls.C57_two_deferred_crash, C57_write_after_try_send_crash, C57_try_recv_during_write_crash |
| C57 | A graceful close during an asynchronous write reports 0 although part was sent | Tls.C57_close_reports_zero |
| C58 | WriteSome that waits for another flush reports success although that flush failed and nothing was sent | Tls.C58_write_reports_lost_data |
| C58 | A request deferred behind a blocking call is never resumed: blocking calls do not call RunPending | Tls.C58_deferred_behind_fiber_lost |
| C58 | Shutdown waits for the peer to take close_notify before it shuts the socket below | Tls.C58_shutdown_needs_peer |
| C60 | Empty vectors and empty buffers fail a CHECK | Tls.C60_empty_vector_crash, C60_empty_buffer_crash |
| C61 | The comment at try_lock_shared says that the UPGRADED bit helps a writer-to-be against starvation. Readers that are turned away still add READER for a moment, and promotion wants the word to be exactly UPGRADED: one thread that keeps asking to read can keep the promotion failing for ever although nobody reads. | RWSpin.C61_promotion_starves, RWSpin.C61_spurious_fails |
| C62 | A callback that was called stays registered: the socket still refers to it until CancelOnErrorCb, so registering another one fails a CHECK and Close logs a fatal error. | UPoll.C62_stays_registered |
| C63 | An event that ends a multishot poll while EpollDel waits arms the poll again under new user data; EpollDel finds nothing, returns, and the callback is called afterwards. | UPoll.C63_late_event |
| C63 | When the kernel fails the poll of an entry (any error but ECANCELED), the entry is deleted, and the EpollDel of its owner uses freed memory. | UPoll.C63_use_after_free |
| C65 | A waiting traversal and a migrating connection can hold each other up without end: each sees the count of the other at every retry (listener_interface.cc 328-332, 374-382). | C65_livelock |
| C66 | A connection that migrates while TraverseConnections runs can be missed by all threads or visited twice: every thread's traversal takes the gate on its own (listener_interface.cc 311-314). | C66_missed, C66_twice |
| C67 | Migrations during the shutdown: a connection on its way is never told to shut down and the listener waits for it; or it arrives after the lists were deleted, survives PostShutdown and uses the destroyed listener, or fails at its next migration; a connection that migrates inside its own Shutdown leads the loop into the list of another thread; a waiting traversal uses a deleted list (listener_interface.cc 187-224, 328-347, 384-414). | C67_never_told, C67_survives, C67_use_after_free, C67_unlinked_again, C67_foreign_list, C67_list_freed |
| C68 | On epoll a periodic task can be called although its timer did not expire: a callback disarms a file whose event is in the batch being dispatched, and a task added after that gets its position in the table (the TODO in DispatchCompletions) | C68_epoll_spurious_call, C68_epoll_calls_partial |
| C69 | A task added before FiberQueueThreadPool::Shutdown, by the same thread, may never run: FiberQueue::Run checks the queue and then the closing flag. Add(f) sleeps on the worker it began with, even when another worker becomes idle. | C69_task_lost, C69_idle_worker_not_used, C69_waits_for_start |
| C70 | FiberReadFile: a read at another offset than the next one, while the buffer holds bytes and no prefetch runs, waits for a completion that never comes (fiber_file.cc 204-208, 237); a prefetch that fails stores -1, read as a size_t of 2^64-1 (238-241), so a read after the buffer was used up returns whatever is in the buffer or reads past it | C70_seek_hangs, C70_hang_iff, C70_prefetch_error, C70_wrong_bytes |
| C71 | metric_vec.resize(dense_id + 1) (metrics.cc 67) shortens the table when a thread meets a tuple with a smaller number than one it has: values are lost and the next update of one of them is out of bounds. The hash is fed the label values without separators (metrics.cc 59-61), so ("ab","c") and ("a","bc") share a counter. Set on two threads adds up | C71_lost, C71_out_of_bounds, C71_boundary, C71_gauge_sum |
| C72 | A pool that is run again after Stop leaks its first proactors, and MapCpuToThreads lists each thread twice | C72_second_run_leaks, C72_second_run_doubles |
| C74 | With set_retry_count(n), n of 2 or more, a successful Send writes the request n times and the next call returns the response to the earlier request; a failed write is never retried; with 0 nothing is sent and no error is reported | C74_copies, C74_stale, C74_no_retry, C74_zero |
| C74 | After a response over the parser's limit the connection stays in use with the rest of it unread; Reconnect of a TLS client gives a plain connection | C74_rest_taken, C74_reconnect_plain |
| C75 | GetHandle drops an idle client that lost its connection without counting it out, so handles_count is too high and the destructor's DCHECK fails; an IPv6 domain is split at its last colon and the process ends | C75_idle_loss, C75_ipv6 |
| C76 | With no iterations Send returns no error and no response; an error body over the limit leaves its rest in a pooled connection; after a retry, the connection that the server closes goes to the pool and the good one is shut down | C76_zero, C76_rest_left, C76_wrong_connection |
| C77 | DnsResolve with the process's channel: the callback activates the fiber before it writes the result, so a failure can be reported as success without an address, and the callback writes to a dead stack frame | C77_shared_race |
| C77 | A change of what c-ares waits for on an open socket is ignored; a socket opened while the loop over the sockets runs may invalidate the loop's iterator; an IPv4 address behind two IPv6 addresses is not preferred | C77_change_ignored, C77_table_moves, C77_v4_missed |
| C78 | If no socket can be created for any address (for example EMFILE), AddListener reports success although nothing listens. Only the first usable address of a family is tried. AddUDSListener refuses a path of 107 bytes that fits and destroys an open socket then. | C78_silent_failure, C78_second_not_tried, C78_uds_path |
| C79 | After a failed Connect the io_uring socket keeps its descriptor, and a second Connect fails a CHECK; the epoll socket can be tried again. | C79_connect_again |
| C80 | A request carries the descriptor number, and the kernel looks it up on submission. If another fiber closes the socket in between and opens a new one with the same number, the bytes go to the wrong connection; the same on a retry after EAGAIN. Recv ignores Shutdown, unlike RecvMsg. Asynchronous calls pass EAGAIN on. | C80_cross_talk, C80_cross_talk_retry, C80_recv_ignores_shutdown, C80_async_eagain |
| C81 | A callback registered for a path the server answers itself (for example /flagz) is accepted and never called; an unknown path is answered with 401 instead of 404 | C81_shadowed, C81_unknown |
| C82 | ParseFromBuffer called twice does not continue the unfinished request of the first call, so the second call's bytes are read as a new request | C82_twice |
| C83 | The file is opened by the name from the query and not by the path that was checked, so a link changed in between gives away any file; weakly_canonical without an error code throws for a name that is too long, which ends the process | C83_race, C83_crash |
| C85 | FromHash has no case for a power of two as the number of buckets: it would use the wrong algorithm and return a bucket out of range. Tables only use odd primes, so this is not reached. | C85_bucket_power_of_two_fails, C85_bucket_prime |
| C86 | After a wait (and after each epoll_wait) tq_seq_ is set to 0 by a plain store. A store does not synchronise with the additions it writes over, so the main loop may not see a task announced by such an addition, find the queue empty, set the wait state over the 0 and sleep, while the producer saw no wait state and sent no event. An exchange instead of the store would exclude this. The comment in WakeupIfNeeded says relaxed would be enough there; it is not. | C86_lost_wakeup, C86_relaxed_lost, C86_with_exchange |
| C89 | `MPSC_intrusive_store_next` is a relaxed store (fiber_interface.h 214), while the load is an acquire. The exchange before it does not make it a release in C++, so the consumer may follow a link and then read an old link of that node, or its contents in a race. scheduler.cc 388-404 has a recovery for a state it calls undefined; whether that state came from this store is not known to us. | `C89_code_fails`; with a release store `C89_fifo_partial` |
| C91 | `SharedMutex::unlock` and `unlock_shared` change `state_` with relaxed order. The release of `notifyAll` that follows is on another atomic, which a caller of `lock` or `try_lock` that succeeds at once does not read, and a caller that succeeds between the two operations cannot see. In the C++ memory model the guarded data then races. An x86 read-modify-write is a full barrier, so there only the compiler could expose it | `C91_code_races`, `C91_release_needed`; repaired: `C91_no_race_partial` |
| C93 | `Terminate` sets `kTerminatedBit` with a `fetch_or` that is only acquire; `Join` returns as soon as it sees the bit, also while `Terminate` holds the busy bit or still waits for it, that is before the release `fetch_and`. In the C++ model the fiber's writes then do not happen before what follows `Join`. On x86 a read-modify-write is a full barrier. Joiners that were suspended, and those that come after `Terminate`, are ordered (`C93_woken_partial`, `C93_late_partial`). | `C93_code_races`, `C93_code_races_free`, `C93_release_needed`; `C93_no_race_partial` for the program with release |
| C95 | Future::GetFor takes the value after a relaxed exchange, and EventCount::await_until, unlike await, has no acquire fence after its condition is true: taking the value races with Resolve | C95_getfor_races, C95_getfor_races_in_loop, C95_fence_needed, C95_repaired |
| C96 | EmbeddedBlockingCounter::WaitFor and WaitUntil load the counter relaxed and rely on the event count for acquire, which await_until does not do | C96_waitfor_races, C96_with_fence_partial |
| C98 | A failed WriteSome of the S3 file keeps the bytes it has copied without saying how many; repeating the call doubles them. A part size of 0 loops for ever. A file closed without a byte is completed with no parts. | C98_repeated_write_doubles, C98_zero_part_size, C98_nothing_written |
| C99 | S3ReadFile::Read ignores its offset. Bytes copied before an error in the same call are never returned again. An empty object gives an error or an endless loop. An answer longer than asked for is written past the buffer. An object replaced between two chunks reads as a mixture. Size() is 0 until the first read. | C99_offset_ignored, C99_error_loses_bytes, C99_empty_object_error, C99_empty_object_endless, C99_overflow, C99_mixture, C99_size_unknown |
| C100 | GcsReadFile keeps the connection when the answer has no content length; the next Read goes on with size 0 and its CHECK aborts the process at the end of the body. In all three readers the bytes stored before an error in the same call are lost. Offsets are ignored. | C100_gcs_aborts, C100_error_loses_bytes, C100_offset_ignored |
| C101 | S3 object keys are put into the request target without encoding: the key a?b=c addresses the object a, the key %41 the object A | C101_s3_question_mark, C101_s3_percent |
| C101 | The encoder leaves !*() as they are but AWS signatures prescribe %21 %2A %28 %29: requests for such keys or prefixes are signed over another path or query than the server computes | C101_s3_signed_path, C101_s3_signature_differs, C101_s3_value |
| C101 | Azure block names are zero padded to four digits, so from block 10000 on they are longer than the earlier ones, which the service refuses | C101_block_id_length |
| C102 | logbufsecs is documented as the longest time for which messages are buffered, but the time is looked at only when the same file is written to | C102_no_time_limit |
| C102 | The result of fclose is ignored when a log file is rotated: buffered lines can be lost without a word | C102_rotation_loses |
| C102 | A log file that reaches its limit in the second of its opening is opened again under the same name with its length counted from 0 | C102_same_second |
| C103 | A compressed stream that is cut in the middle of a frame is read as if it had ended, without an error | C103_truncated |
| C103 | ReadSome of the decompressor returns an upstream error although it has already decompressed bytes into the caller's buffer; a retry misses them | C103_error_loses_bytes |
| C103 | ReadSome of the decompressor looks at the first buffer only; if that is empty it returns 0 before the end of the stream | C103_empty_first_buffer |
| C104 | base/varz_node.cc 40-65 and status_page.cc 46-50 print names and texts without escaping: a text with quotes forges further members, and a double that is not a number makes the page no JSON | C104_injection, C104_nan |
| C105 | AwsCredsProvider::Sign does not remove x-amz-security-token: after a refresh from temporary to permanent credentials the request that is signed again carries the old token and is refused | C105_aws_stale_token |
| C105 | ComputeSignature fails a CHECK if the account key is not base64, at the first request and not when the credentials are read | C105_azure_bad_key |
| C105 | A shared access signature without a non-empty sig argument is appended to the target at every signing | C105_sas_nosig |
| C106 | GCS::ListBuckets stops at a page without items, although the page has a token for the next one | C106_gcs_buckets_stops |
| C106 | azure Storage::ListContainers ignores NextMarker: containers after the first page are not reported, and no error is returned | C106_azure_containers_first_page |
| C106 | GCS::List fails a CHECK on an object without size; an empty body is passed to front() | C106_gcs_crash, C106_gcs_empty_body |
| C107 | AwsCredsProvider::RefreshToken returns no error to a fiber that waited for another one whose refresh failed | C107_failure_hidden |
| C107 | AwsCredsProvider::RefreshIfExpiring returns false to a fiber that waited for a refresh, although the credentials changed; RobustSender::Send then sends the request with the old signature | C107_not_signed_again |
| C108 | When an account is asked for, the endpoint of the connection string (BlobEndpoint, EndpointSuffix) is dropped and its key is used with public Azure, while an endpoint of the environment is kept. An endpoint without a scheme is used without encryption. The key of the environment is used for whatever account is asked for. An empty body of the metadata service, or one that is not an object, is undefined behaviour. | C108_requested_drops_endpoint, C108_no_scheme_plain, C108_other_key, C108_empty_body |
| C109 | jump() is documented as 2^64 calls, for 2^64 subsequences that do not overlap (117-119). Its table is that of an earlier version of the generator (rotations 55, 14, 36), while the rotations are those of the current one (24, 16, 37): it is equivalent to 114986939498843273114953691153475215397 calls. Generators fewer than 5866919815217226374 jumps apart still do not meet during 2^64 calls, but that many jumps amount to 14091010405558915323 calls, fewer than 2^64. With the table published for these rotations it is 2^64 calls. | C109_jump, C109_jump_not_2_64, C109_jump_table, C109_streams_partial, C109_streams_overlap |
| C110 | kHighCycleBound is 1 << 31UL, an int, so as 64 bits it is 0xFFFFFFFF80000000 and nothing saturates: sums are stored modulo 2^32, and work of 2^32 cycles (1.4 seconds at 3 GHz) counts as none. Usec10ms reads the count of one millisecond; the one of ten is never read. Conversions overflow after an hour and three quarters at 3 GHz. Before InitOnce they divide by zero. | C110_long_work_unseen, C110_counted, C110_usec10_a_tenth, C110_usec10_wrong, C110_long_times_wrap, C110_before_init |
| C111 | PrepRecv, PrepSend, PrepFadvise and PrepMadvise take a 64-bit length and store 32 bits: 4 GiB is a request for nothing, whose result looks like a closed connection. PrepAccept puts the length where the kernel wants zero and is refused; nothing in the repository calls it. | C111_what_is_seen, C111_4GiB_is_nothing, C111_accept_refused |
| C112 | ReadFixed and FSync of a LinuxFile do not tell the kernel that the number is an index of the ring's table, as the other operations do: they act on whatever file has that number as its descriptor (the first registered file: standard input). Sizes are cut to 32 bits. Descriptor zero is never closed. | C112_wrong_file, C112_wrong_file_case, C112_sizes_cut, C112_close |
| C113 | Murmur32 and Fingerprint of a string of 4 GiB or more hash only its first size mod 2^32 bytes | C113_str_truncated |
| C114 | Tuples with two adjacent strings hash only the concatenation; an empty optional hashes like no field | C114_collide, C114_collide_case |
| C115 | A second MainInitGuard constructed by another thread returns before the initializers have run; a guard constructed while the last is destroyed runs them next to the destructors | C115_early_return, C115_overlap |
| C116 | notify with a persistent waiter in front starves the others in release builds; SubKey::Drop leaks a unit of the waiter count; subscribe_persistent misses a notification in its middle (documented) | C116_starved, C116_drop_leaks, C116_gap |
| C117 | A signal that is cleared (as the destructor of AcceptServer does) after it arrived and before its callback runs makes the task call an empty std::function, which ends the program; registered again, the task calls the new callback on the old proactor. A signal number of 65 or more indexes the map out of bounds. | `C117_cleared`, `C117_other_callback`, `C117_out_of_range` |
| C118 | WithIndex calls its iterators forward iterators, but the index counts dereferences: *it twice gives two indices for one element, equal iterators give different values, and ++ without * leaves the index behind. | `C118_index_drifts` |
| C119 | Migrate retries on the dispatcher until the destination has room. Two proactors with full queues that migrate fibers to each other wait for each other forever and run no task again. | `C119_migrate_deadlock` |
| C120 | Accept and Connect return as soon as Handshake reports EOF_ABRUPT or EOF_GRACEFUL, before MaybeSendEngineOutput, so the alert that the engine produced in that call is never sent, although the comment says that it is important to send protocol errors before returning | C120_alert_not_sent, C120_case |
| C121 | VarzMapAverage::GetData does not merge the maps of the threads: a key used on m threads appears m times in the result (and in the JSON object of the status page), each with the values of one thread | C121_duplicates, C121_case |
| C122 | IsUDS of a closed socket is true, as fd_ is -1; the debug check of ListenUDS passes on a socket that was never created, and Bind then creates an internet socket for the path | C122_closed_is_uds |
| C122 | ListenUDS refuses paths of 107 characters, which fit sun_path with their end mark | C122_path_length |
| C122 | Listen arms the socket; one that was given a proactor after Create is armed already, and the CHECK in OnSetProactor fails | C122_crash, C122_crash_case |
| C126 | min is converted to double: from 2^53+1 on the generator can return an item below min | C126_rounds |
| C127 | read_some and write_some leave an earlier error in the caller's variable when they succeed | C127_stale |
| C127 | errors of any category are reported as system errors with the same number | C127_category |
| C127 | a content stream shorter than its declared length is filled with characters '0' | C127_copied, C127_filled |
| C128 | The configuration calls background_warrant_pct the minimum CPU time of background fibers, but while I/O events or queued tasks keep the loop busy and no normal fiber runs, Run(BACKGROUND) is not reached and Run(NORMAL) gives them nothing. | C128_callbacks_starve |
| C131 | Two requests to start profiling at once are both told that profiling started; only one profile is written, and the stop redirects to the other, which does not exist. | C131_concurrent_refuted |
| C132 | RequestBuffer(0) reserves an empty segment at an offset that a later buffer shares, so returning it frees the later buffer: memory that is still held is given out again. A size of 16 TB or more is cut to 32 bits when it is passed to SegmentPool, so a request that cannot be met succeeds with a slice that reaches beyond the pool. | C132_zero_refuted, C132_huge_refuted |
| C133 | ProgramAbsoluteFileName reads the link into 2048 characters and does not notice when it was cut, while Linux allows 4095; and it strips ' (deleted)' from the name of a file that is really called so. | C133_cut_refuted, C133_suffix_refuted |
| C134 | In multishot mode nothing ever sets register_recv_multishot_. So ResetOnRecvHook (and Close) never cancels the request: the callback is called after the reset, and the socket is used after its destruction when the kernel ends the request. A second RegisterOnRecv passes its CHECK. The error code is negated twice and is negative. ENOBUFS ends in LOG(FATAL). | C134_reset_refuted, C134_called_after_reset_refuted, C134_freed_refuted, C134_twice_refuted, C134_sign_refuted, C134_nobufs_refuted |
| C135 | SwitchSetup checks the counter only against the time the new fiber became ready, so when the counter goes back and a fiber becomes ready after that, the run of the suspended fiber is computed with a wrap and an hour of long run is recorded. A run of 71.6 minutes or more is cut to 32 bits. GetPastFiberNames gives (number of switches mod 8) names, none after eight. If the fiber library is used before the frequency is set (base/init.cc), the first switch divides by zero. | C135_back_refuted, C135_hour_refuted, C135_names_refuted, C135_frequency_refuted |
| C136 | When the cycle counter goes back during a wait, the subtraction wraps and the idle ratio becomes far larger than 1. After the counter went back RunL2Tasks runs the tasks at every call and moves its own time 10 microseconds ahead each time, so it never returns to normal if it is called more often than that, and ShouldPollL2Tasks stays false meanwhile. | Load.C136_back_refuted, C136_often_refuted, C136_poll_refuted |
| C137 | HumanReadableNum negates the smallest int64, which is undefined (HumanReadableNumBytes treats that value separately). Numbers just below a unit are shown as 1000.00 of the smaller unit. | HumanNum.C137_min_refuted, C137_thousand_refuted |
| C138 | SortedTable writes cells without escaping: a cell that contains markup changes the structure of the table. | HtmlTable.C138_markup_refuted |
| C139 | HumanReadableElapsedTime shows 30 days as 0.986 months, 59.96 seconds as 60 s, and 1000 years as 1e+03 years. | Elapsed.C139_month_refuted, C139_sixty_refuted, C139_years_refuted |
| C140 | Every run of a function on a suspended fiber's stack leaves a call on that stack until the fiber is resumed, so repeated stack traces of a fiber that sleeps long use up its stack. | OnStack.C140_depth_refuted |

## What the mutation log shows

`seeded/LOG.jsonl` has one line per edited model. An edit counts as caught when the edited copy no longer builds, and `failed` names the
declarations that stopped checking. Often these are lemmas or invariants below the property theorems, which then never get checked. So a
caught edit shows that the proof as written depends on the edited line. It does not by itself show that the property is false of the edited
program. `breaks` is our reading of the claim the edit makes false. A few edits turned out to be equivalent: their `breaks` field says
"nothing", also where the proof script failed.
