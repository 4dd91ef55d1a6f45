{"id": "C01", "title": "RingBuffer is a bounded FIFO, also across counter wrap-around", "statement": "For every power-of-two capacity that fits in 32 bits and every sequence of TryEmplace, EmplaceOrOverride, TryDeque, ConsumeHead and operator[] calls, the results are exactly those of a bounded FIFO list of that capacity: TryEmplace fails only when capacity elements are stored, EmplaceOrOverride drops exactly the oldest element when full, TryDeque returns the oldest element, and [i] is the i-th oldest. This stays true after more than 2^32 insertions, when the internal 32-bit counters wrap.", "quantifier": "every capacity 2^k with k<=31, every element type, every finite sequence of operations of any length", "why_tests_cant": "The wrap-around needs 2^32 operations and the sequences of operations are unbounded; a test samples a few short sequences.", "anchors": ["base/ring_buffer.h: RingBuffer::TryEmplace, EmplaceOrOverride, GetTail, TryDeque, operator[], ConsumeHead, size, Full"]}
{"id": "C02", "title": "IoBuf is a lossless byte queue", "statement": "For every sequence of WriteAndCommit, CommitWrite after filling AppendBuffer, ConsumeInput, ReadAndConsume, EnsureCapacity, Reserve, ShrinkTo, Compact, Clear and move, the bytes in InputBuffer() are exactly the committed bytes minus the consumed prefix, in order; no reallocation, compaction or shrink loses, duplicates or reorders a byte, and offsets stay within the capacity.", "quantifier": "every sequence of IoBuf operations that respects the documented preconditions, every buffer content and capacity", "why_tests_cant": "The layout depends on the whole history of offsets (the compaction thresholds 2*offs>size and <512); tests cannot enumerate histories.", "anchors": ["base/io_buf.h: IoBuf", "base/io_buf.cc: ConsumeInput, ReadAndConsume, WriteAndCommit, Reserve, ShrinkTo, Reallocate, Swap"]}
{"id": "C03", "title": "IoBuf capacity contracts", "statement": "EnsureCapacity(n) always leaves AppendLen() >= n and does nothing when n already fits; Reserve(n) leaves Capacity() >= n; ShrinkTo(t) returns true exactly when t < capacity, the rounded-up power of two is < capacity and holds InputLen(), and then the capacity is that power of two; generation() changes exactly when the memory is replaced.", "quantifier": "every reachable IoBuf state and every argument for which no 64-bit size overflows", "why_tests_cant": "Holds for all 64-bit sizes and all layouts; tests try a few values.", "anchors": ["base/io_buf.h: EnsureCapacity, generation", "base/io_buf.cc: Reserve, ShrinkTo, Reallocate"]}
{"id": "C04", "title": "SegmentPool never hands out overlapping memory", "statement": "For every history of Request, Return and Grow with non-zero lengths, every segment handed out and not yet returned lies inside [0,size) and is disjoint from every other such segment, and Return frees exactly the segment it is given.", "quantifier": "every history of requests and (valid) returns of any length, every pool size", "why_tests_cant": "Overlap depends on the order of returns; the number of histories is unbounded.", "anchors": ["base/segment_pool.h", "base/segment_pool.cc: SegmentPool::Request, Return, Grow"]}
{"id": "C05", "title": "Flit variable-length integers round-trip", "statement": "Decoding the bytes written by the flit encoder for any 64-bit (or 32-bit) value returns that value and consumes exactly the number of bytes the encoder wrote; the first byte alone determines the length.", "quantifier": "all 2^64 values (and all 2^32 for the 32-bit form), any trailing bytes", "why_tests_cant": "2^64 inputs.", "anchors": ["base/flit.h: Encode64, Parse64Fast, Parse64Safe, EncodeT, ParseT, EncodingLength"]}
{"id": "C06", "title": "Flit safe decoding stays inside the given range", "statement": "The decoder that takes an explicit byte range never reads outside that range, whatever bytes it contains.", "quantifier": "every byte string of every length", "why_tests_cant": "Out-of-range reads are only visible for particular lengths and contents; without a sanitizer they are silent.", "anchors": ["base/flit.h: Parse64Safe"]}
{"id": "C07", "title": "ZigZag mapping is a bijection that keeps small magnitudes small", "statement": "ZigZag decoding inverts ZigZag encoding and vice versa for every 32- and 64-bit integer, and the code of x is 2|x| or 2|x|-1.", "quantifier": "all 2^64 signed and unsigned values", "why_tests_cant": "2^64 inputs.", "anchors": ["base/flit.h: ZigZagEncode, ZigZagDecode"]}
{"id": "C08", "title": "mpmc_bounded_queue neither loses, duplicates nor invents elements", "statement": "In every interleaving of any number of producers calling try_enqueue and consumers calling try_dequeue, each successful enqueue's value is returned by at most one dequeue, each dequeue returns a value some enqueue put in, the claim order of dequeues equals the claim order of enqueues (FIFO), and at most capacity elements are inside.", "quantifier": "every power-of-two capacity, any number of threads, every interleaving of their atomic steps", "why_tests_cant": "Schedules are unbounded and races have tiny windows.", "anchors": ["base/mpmc_bounded_queue.h: mpmc_bounded_queue::try_enqueue, try_dequeue"]}
{"id": "C09", "title": "MPSCIntrusiveQueue delivers each pushed node once and keeps every producer's order", "statement": "In every interleaving of any number of producers Push and one consumer Pop, each pushed node is popped at most once, in the order in which pushes exchanged the tail, Pop never returns a node that was not pushed, and when no push is in progress Pop returns null only if everything pushed was popped.", "quantifier": "any number of producers, every interleaving of atomic steps, unbounded histories", "why_tests_cant": "The temporarily broken link (between exchange and next-store) only shows in particular schedules.", "anchors": ["base/mpsc_intrusive_queue.h: MPSCIntrusiveQueue::Push, Pop"]}
{"id": "C10", "title": "ProducerConsumerQueue (SPSC) is a bounded FIFO under concurrency", "statement": "With one producer thread and one consumer thread in any interleaving, reads return exactly the written records in order with nothing lost or repeated; write fails only when size-1 records are unread; a slot is never written while it is being read.", "quantifier": "every queue size >= 2, every interleaving of the two threads' atomic steps, unbounded histories", "why_tests_cant": "Interleavings are unbounded.", "anchors": ["base/ProducerConsumerQueue.h: write, read, popFront, frontPtr, isEmpty, isFull, sizeGuess"]}
{"id": "C11", "title": "Histogram bookkeeping is exact and merge-compatible", "statement": "After any sequence of Add/Merge/Clear, count and sum are exact, min/max are the true extremes, the bucket counts sum to the count, each value is counted in the unique bucket whose limits contain it, and merging two histograms gives the histogram of the concatenated samples.", "quantifier": "every sequence of samples (as exact numbers) and merges", "why_tests_cant": "Unbounded inputs; boundary values of 154 buckets.", "anchors": ["base/histogram.h", "base/histogram.cc: Histogram::Add, Merge, Clear"]}
{"id": "C12", "title": "Cuckoo map behaves like a dictionary", "statement": "For any sequence of Insert, Find, Grow/Reserve, Compact and Clear on CuckooMap, Find(k) returns a value iff k was inserted, and it is the value of the first insertion; growing never loses or duplicates a key.", "quantifier": "every key set, hash seed and operation sequence", "why_tests_cant": "Depends on hash collisions and relocation chains.", "anchors": ["base/cuckoo_map.h", "base/cuckoo_map-internal.h", "base/cuckoo_map.cc: CuckooMapTable::Insert, find, Grow, Compact"]}
{"id": "C13", "title": "PmrArena allocations are disjoint and sized", "statement": "Every two allocations returned by PmrArena occupy disjoint byte ranges inside blocks owned by the arena, each as large as requested, for every sequence of requests.", "quantifier": "every sequence of request sizes", "why_tests_cant": "Unbounded sequences and block-boundary cases.", "anchors": ["base/pmr/arena.h", "base/pmr/arena.cc: PmrArena::allocate, AllocateFallback, AllocateNewBlock"]}
{"id": "C14", "title": "Source read loops return the stream, whatever the chunking", "statement": "ReadAtLeast/Read over a Source that returns data in arbitrary short reads delivers exactly the next bytes of the stream in order: at least the requested minimum unless EOF or error, never more than the destination, and nothing is skipped or repeated.", "quantifier": "every source behaviour (any partition of the stream into short reads, EOF, errors), every buffer size", "why_tests_cant": "All chunkings of all streams.", "anchors": ["io/io.h: Source::Read, ReadAtLeast", "io/io.cc: Source::ReadAtLeast, ReadSome"]}
{"id": "C15", "title": "Sink::Write writes every byte exactly once and in order", "statement": "Sink::Write over a sink that accepts arbitrary short writes either returns success having passed exactly the concatenation of the vectors, in order and once, to the sink, or returns an error having passed a prefix of it.", "quantifier": "every vector list (including empty vectors), every short-write/EINTR/error behaviour of the sink", "why_tests_cant": "All possible sequences of partial writes.", "anchors": ["io/io.cc: Sink::Write, ApplyExactly", "io/io.h: Sink"]}
{"id": "C16", "title": "Composed sources deliver the concatenation", "statement": "PrefixSource followed by its upstream delivers prefix ++ upstream stream; BytesSource delivers exactly its bytes; BufSource/StringSink/BufSink preserve byte order, for every read size pattern.", "quantifier": "every prefix, upstream and sequence of read requests", "why_tests_cant": "All read-size patterns.", "anchors": ["io/io.h: PrefixSource, BytesSource, BufSource, StringSink, BufSink, NullSink", "io/io.cc"]}
{"id": "C17", "title": "AsyncWrite/AsyncRead complete exactly once with the exact byte range", "statement": "The async exact-write/read helpers invoke the user callback exactly once, with success only after exactly all bytes in order were transferred, for every sequence of partial completions.", "quantifier": "every sequence of partial completions, zero completions and errors", "why_tests_cant": "All completion sequences.", "anchors": ["io/io.cc: AsyncWriteState::OnCb, AsyncReadState::OnCb, AsyncSink::AsyncWrite, AsyncSource::AsyncRead"]}
{"id": "C18", "title": "LineReader yields the lines of the stream", "statement": "LineReader::Next yields exactly the lines of the input (split at LF, a trailing CR removed), independent of how the source chunks its data.", "quantifier": "every input byte string and every chunking of it", "why_tests_cant": "Page-boundary and chunk-boundary cases are unbounded.", "anchors": ["io/line_reader.h", "io/line_reader.cc: LineReader::Next"]}
{"id": "C19", "title": "EventCount has no lost wake-ups", "statement": "If a condition becomes true and is then followed by notifyAll (or by notify with a single waiter), no fiber that calls await(condition) stays blocked, in any interleaving of the check, the epoch registration and the notification with fewer than 2^32 notifications (the width of the epoch) while the fiber holds one registration.", "quantifier": "any number of waiters and notifiers, every interleaving of their atomic steps", "why_tests_cant": "The window between checking the condition and going to sleep is tiny.", "anchors": ["util/fibers/event_count.h: EventCount::prepareWait, wait, notify, notifyAll, await"]}
{"id": "C20", "title": "Fiber Mutex: mutual exclusion and no stranded waiter", "statement": "At most one fiber holds a fibers Mutex at any moment; if the mutex is free and fibers are queued on it, at least one of them has been woken and will retry; try_lock succeeds iff it is free.", "quantifier": "any number of fibers, every interleaving", "why_tests_cant": "Schedules are unbounded.", "anchors": ["util/fibers/synchronization.h: Mutex", "util/fibers/synchronization.cc: Mutex::lock, try_lock, unlock"]}
{"id": "C21", "title": "CondVar wait/notify", "statement": "A fiber that called wait on a CondVar while holding the mutex is woken by a notify_all (or, being the only waiter, notify_one) issued later under the same mutex: there is no window between unlocking and enqueueing in which a notification is lost.", "quantifier": "any number of waiters and notifiers, every interleaving", "why_tests_cant": "Schedules are unbounded.", "anchors": ["util/fibers/synchronization.h: CondVarAny::wait, notify_one, notify_all"]}
{"id": "C22", "title": "BlockingCounter releases waiters exactly at zero or on cancel", "statement": "Wait() on a blocking counter returns true only after as many Dec() as Add()/initial count happened, returns false only if Cancel() was called, and once the count is zero or cancelled every waiter returns.", "quantifier": "any number of Add/Dec/Cancel/Wait calls in every interleaving", "why_tests_cant": "Schedules are unbounded.", "anchors": ["util/fibers/synchronization.h: EmbeddedBlockingCounter, BlockingCounter", "util/fibers/synchronization.cc: EmbeddedBlockingCounter::Wait, Dec, Cancel, Start"]}
{"id": "C23", "title": "Barrier releases a full cycle together and Cancel is final", "statement": "Barrier::Wait returns only when all participants of the cycle arrived or the barrier was cancelled; after Cancel no Wait blocks.", "quantifier": "any number of participants and cycles, every interleaving with Cancel", "why_tests_cant": "Needs a specific order of Cancel, late arrival and re-scheduling of an early waiter.", "anchors": ["util/fibers/synchronization.h: Barrier", "util/fibers/synchronization.cc: Barrier::Wait, Cancel"]}
{"id": "C24", "title": "SharedMutex excludes readers and writers and does not strand them", "statement": "A writer never holds the lock together with a reader or another writer, and whenever the lock is free and a fiber is blocked on it, a wake-up for it is on its way.", "quantifier": "any number of readers and writers, lock and try_lock, every interleaving", "why_tests_cant": "Schedules are unbounded.", "anchors": ["util/fibers/synchronization.h: SharedMutex", "util/fibers/synchronization.cc: SharedMutex::lock, try_lock, lock_shared, try_lock_shared, unlock, unlock_shared"]}
{"id": "C25", "title": "SimpleChannel delivers every pushed item and drains on close", "statement": "Pop returns items in queue order, each exactly once; Pop returns false only after the channel started closing and everything pushed before the closing was popped; no pusher or popper stays blocked when it could proceed.", "quantifier": "any number of producers and consumers, every interleaving, any capacity", "why_tests_cant": "Schedules are unbounded.", "anchors": ["util/fibers/simple_channel.h: SimpleChannel::Push, TryPush, Pop, TryPop, StartClosing"]}
{"id": "C26", "title": "Future and Done: every waiter observes the result", "statement": "After Future::Resolve(v) every Get/GetRef (within the documented number of consumers) returns v; Done::Wait returns after Notify and never before; a second wait after Reset needs a second Notify.", "quantifier": "any number of waiters, every interleaving with Resolve/Notify/Reset", "why_tests_cant": "Schedules are unbounded.", "anchors": ["util/fibers/future.h: Future", "util/fibers/synchronization.h: Done"]}
{"id": "C27", "title": "FiberQueue executes every accepted task exactly once in order", "statement": "Every task accepted by FiberQueue::Add/TryAdd before Shutdown is executed exactly once, in queue order, before Run returns.", "quantifier": "every capacity, any number of adders, every interleaving of Add, Run and Shutdown", "why_tests_cant": "The race between the last Add and Shutdown is tiny.", "anchors": ["util/fibers/fiberqueue_threadpool.h: FiberQueue::TryAdd, Add, Await", "util/fibers/fiberqueue_threadpool.cc: FiberQueue::Run, Shutdown"]}
{"id": "C28", "title": "Fiber join is never lost", "statement": "For every interleaving of a fiber's termination and other fibers' Join on it, each joiner returns after the fiber has terminated: either it sees the terminated flag or it is in the wait list when the terminating fiber wakes the list; it never enters the list afterwards.", "quantifier": "any number of joiners on any threads, every interleaving", "why_tests_cant": "The window between the flag check and the list insertion is tiny.", "anchors": ["util/fibers/detail/fiber_interface.cc: FiberInterface::Join, Terminate"]}
{"id": "C29", "title": "A dispatched task always wakes a sleeping proactor", "statement": "After a DispatchBrief/AwaitBrief from another thread completes its enqueue and wake-up steps, the target proactor is not blocked in the kernel with that task unprocessed, in any interleaving of producers with the proactor loop going to sleep.", "quantifier": "any number of producer threads, every interleaving of atomic steps", "why_tests_cant": "A missed wake-up needs an exact interleaving at the moment of going to sleep.", "anchors": ["util/fibers/proactor_base.h: DispatchBrief, WakeupIfNeeded", "util/fibers/epoll_proactor.cc: EpollProactor::MainLoop", "util/fibers/uring_proactor.cc: UringProactor::MainLoop"]}
{"id": "C30", "title": "I/O completions reach exactly the callback that was armed", "statement": "Every submitted operation's completion invokes the callback registered with it, exactly once, and never a callback registered for another operation, for every order of submissions, completions and table growth.", "quantifier": "every history of GetSubmitEntry/Arm/Disarm/completions of any length", "why_tests_cant": "Slot reuse and table growth depend on the whole history.", "anchors": ["util/fibers/uring_proactor.cc: GetSubmitEntry, ProcessCqeBatch, RegrowCentries", "util/fibers/epoll_proactor.cc: Arm, Disarm, DispatchCompletions, RegrowCentries"]}
{"id": "C31", "title": "Registered direct descriptors are distinct", "statement": "RegisterFd never hands out an index that is still registered, takes a free index whenever there is one, and an index is handed out again only after UnregisterFd released it; the index translates to the descriptor it was registered for.", "quantifier": "every history of registrations and unregistrations including kernel failures", "why_tests_cant": "Depends on the history of frees.", "anchors": ["util/fibers/uring_proactor.cc: RegisterFd, UnregisterFd"]}
{"id": "C32", "title": "On-idle tasks run safely and keep their identity", "statement": "After any sequence of AddOnIdleTask, RemoveOnIdleTask and idle-loop iterations, RunOnIdleTasks only touches existing tasks, every installed task is visited in round-robin order, and the id returned by AddOnIdleTask removes that task and no other.", "quantifier": "every sequence of additions, removals and idle iterations", "why_tests_cant": "Needs particular interleavings of removal and the round-robin cursor.", "anchors": ["util/fibers/proactor_base.cc: AddOnIdleTask, RunOnIdleTasks, RemoveOnIdleTask"]}
{"id": "C33", "title": "Scheduler: runnable fibers run, sleepers wake in order and never early", "statement": "A fiber made ready is in exactly one ready queue and is dispatched in FIFO order within its priority; a fiber sleeping until t is not woken by the timer before t; timers fire in deadline order; waking a fiber early removes it from the timer queue.", "quantifier": "every history of AddReady, WaitUntil, timer processing and dispatch", "why_tests_cant": "Histories are unbounded.", "anchors": ["util/fibers/detail/scheduler.cc: AddReady, Preempt, WaitUntil, ProcessSleep, PopReady, RunReadyFibersInternal"]}
{"id": "C34", "title": "Timed wait reports timeout correctly", "statement": "WaitUntil/await_until report a timeout iff the deadline expired before the wake-up arrived, for every deadline value.", "quantifier": "every deadline including time_point::max(), every interleaving of notification and timer", "why_tests_cant": "Special deadline values and races.", "anchors": ["util/fibers/detail/scheduler.cc: WaitUntil, ProcessSleep", "util/fibers/detail/wait_queue.cc", "util/fibers/event_count.h: wait_until"]}
{"id": "C35", "title": "SlidingCounter equals the sum over the window", "statement": "SlidingCounter::Sum equals the sum of the increments of the last N slots, and SumTail the same without the current slot, for every sequence of increments at non-decreasing times.", "quantifier": "every window size and every sequence of timestamped increments", "why_tests_cant": "Unbounded time gaps and sequences.", "anchors": ["util/sliding_counter.h: SlidingCounter::IncBy, Sum, SumTail, MoveTsIfNeeded"]}
{"id": "C36", "title": "URL encoding round-trips and decoding is total", "statement": "Decoding an encoded string returns the original for every byte string; the encoded form uses only unreserved characters and %XX; decoding fails exactly on malformed escapes.", "quantifier": "every byte string", "why_tests_cant": "Unbounded inputs over all 256 byte values.", "anchors": ["strings/escaping.cc: UrlEncode, UrlDecode", "util/http/encoding.cc"]}
{"id": "C37", "title": "Human-readable byte parsing is exact", "statement": "ParseHumanReadableBytes accepts exactly strings number[KMGTPE][B] and returns number scaled by the right power of 1024; values that do not fit in int64 are rejected.", "quantifier": "every input string", "why_tests_cant": "Unbounded inputs; overflow boundary.", "anchors": ["strings/human_readable.cc: ParseHumanReadableBytes, HumanReadableNumBytes"]}
{"id": "C38", "title": "Advancing an iovec array skips exactly n bytes", "statement": "AdvanceIovec(n) leaves an array whose concatenated bytes are the original ones without the first n; IsEmptyIovec holds iff no bytes remain; GetIovecTotalBytes is their number.", "quantifier": "every iovec array (including zero-length entries), every n up to the total", "why_tests_cant": "All partitions of all byte strings.", "anchors": ["util/tls/iovec_utils.cc: AdvanceIovec, IsEmptyIovec, GetIovecTotalBytes"]}
{"id": "C39", "title": "PODArray is a growable array within its allocation", "statement": "For every sequence of push_back, pop_back, insert, resize and reserve on a PODArray of any element type, the elements are those of the abstract list and no operation touches memory outside the array's allocation.", "quantifier": "every element size, every sequence of operations", "why_tests_cant": "Depends on element size versus power-of-two rounding and on the history.", "anchors": ["base/pmr/pod_array.h: PODArray::push_back, reserve, realloc, insert, resize"]}
{"id": "C40", "title": "Positional file reads return the file's bytes", "statement": "ReadAllPosix / PosixReadFile::Read at an offset fill the vectors with exactly the file bytes from that offset until the vectors are full or the file ends, never writing outside the vectors, for every pattern of short reads and EINTR.", "quantifier": "every file, offset, vector layout and short-read pattern", "why_tests_cant": "Short pread results cannot be provoked at will.", "anchors": ["io/file.cc: ReadAllPosix, ReadAll, PosixReadFile::Read"]}
{"id": "C41", "title": "Proc-file parsing reports every key-value line", "statement": "The proc-file reader calls back with every key/value line of the file in order, whatever the sizes of the read() chunks and whatever other lines the file has.", "quantifier": "every file content and chunking", "why_tests_cant": "Unbounded contents and chunkings.", "anchors": ["io/proc_reader.cc: ReadProcFile"]}
{"id": "C42", "title": "Cloud storage writers upload exactly what was written", "statement": "The concatenation of uploaded parts plus the buffered remainder equals the concatenation of all bytes passed to WriteSome, for every sequence of vectored writes.", "quantifier": "every sequence of writes and part size", "why_tests_cant": "All write-size patterns versus part boundary.", "anchors": ["util/cloud/utils.cc: AbstractStorageFile::WriteSome, FillBuf"]}
{"id": "C43", "title": "Provided-buffer ring accounting", "statement": "Buffers of a registered ring given to receive completions never exceed their entry's bounds and consecutive completions on an incremental entry return consecutive, disjoint ranges.", "quantifier": "every sequence of completions", "why_tests_cant": "Depends on the history of partial completions.", "anchors": ["util/fibers/uring_proactor.cc: BufRingGetBufPtr, BufRingTrackRecvCompletion, BufRingGroup"]}
{"id": "C44", "title": "Whole-file reads return the file", "statement": "ReadFileToString returns exactly the file content for every file size, given full positional reads.", "quantifier": "every file content and size (all buffer doublings)", "why_tests_cant": "Unbounded sizes.", "anchors": ["io/file_util.cc: ReadFileToString"]}
{"id": "C45", "title": "RESP request parsing does not depend on packet boundaries", "statement": "Feeding a RESP request to the ping-server parser in any split gives the same arguments as feeding it at once, and the parser never writes outside its buffers or returns references to memory the caller may already reuse.", "quantifier": "every request and every split of it", "why_tests_cant": "All splits of all requests.", "anchors": ["examples/pingserver/resp_parser.cc: RedisParser::Parse, ConsumeBulk, CacheState"]}
{"id": "C46", "title": "Fiber reference counting frees a fiber exactly once", "statement": "A fiber object is destroyed exactly once, when the last of its owner handles and its own running reference is released, never while a handle remains, in every interleaving.", "quantifier": "any number of handles, every interleaving of copies and releases", "why_tests_cant": "Schedules are unbounded.", "anchors": ["util/fibers/detail/fiber_interface.h: intrusive_ptr_add_ref, intrusive_ptr_release", "util/fibers/detail/scheduler.cc: DestroyTerminated"]}
{"id": "C47", "title": "INI parsing", "statement": "The ini parsers report every key=value of the requested section with surrounding whitespace removed, ignoring comments and blank lines, and nothing from other sections.", "quantifier": "every input text", "why_tests_cant": "Unbounded inputs.", "anchors": ["util/cloud/utils.cc: ParseIniSection", "io/line_reader.cc: ini::Parse"]}
{"id": "C48", "title": "HTTP URL splitting loses nothing", "statement": "ParseHttpUrl splits scheme, host, port and path such that recombining them gives an equivalent URL; default ports are chosen by scheme.", "quantifier": "every input string", "why_tests_cant": "Unbounded inputs.", "anchors": ["util/cloud/utils.cc: ParseHttpUrl"]}
{"id": "C49", "title": "Positioned file writes and reads hit exactly the requested range", "statement": "LinuxFile::Write at an offset, whatever short writes the kernel makes, on success leaves the file with exactly the bytes of the vectors at that offset and unchanged elsewhere, and on error with a prefix of them; LinuxFile::Read on success has filled the vectors with exactly the file's bytes from the offset, and it returns for every range.", "quantifier": "every vector array, offset, file content and sequence of short transfers and errors", "why_tests_cant": "All sequences of short transfers; a read past the end must be considered for every file.", "anchors": ["util/fibers/uring_file.cc: LinuxFile::Write, LinuxFile::Read, WriteSome, ReadSome", "io/io.h: ApplyExactly"]}
{"id": "C50", "title": "HTTP query splitting is exact", "statement": "ParseQuery returns the text before the first '?' and the text after it; SplitQuery returns one key/value pair per '&'-separated argument, in order, the key being the text before the first '=' and the value the text after it, so that rejoining them gives the query back.", "quantifier": "every input string", "why_tests_cant": "Unbounded inputs.", "anchors": ["util/http/http_common.cc: ParseQuery, SplitQuery"]}
{"id": "C51", "title": "Timed CondVar waits leave the mutex intact", "statement": "CondVar::wait_until and wait_for may be used with a Mutex like wait: a fiber whose wait timed out relocks the mutex and returns, and notifications issued under the mutex in the meantime neither resume it at a wrong place nor damage the wait queues.", "quantifier": "any number of fibers, every interleaving with timeouts", "why_tests_cant": "Needs a timeout, a contended relock and a notification in one narrow order.", "anchors": ["util/fibers/synchronization.h: CondVarAny::wait_until", "util/fibers/synchronization.cc: CondVarAny::PostWaitTimeout, Mutex::lock"]}
{"id": "C52", "title": "Blocking socket I/O: no byte lost, no wakeup lost", "statement": "On a connection of the epoll proactor, Recv/TryRecv return the bytes that arrived, each once and in order; WriteSome returns how many first bytes of its data were handed to the kernel, and a failed one sent none; a fiber blocked in a read or write always runs again when data, space, an end of stream or an error is there; Shutdown and Close release blocked fibers; the end of the stream is reported only after all data.", "quantifier": "every history of arrivals, peer actions, event dispatches, timeouts and calls, any sizes", "why_tests_cant": "The order of edge-triggered events, partial reads, suspensions and timeouts is up to the network; a lost edge hangs a fiber only in one interleaving.", "anchors": ["util/fibers/epoll_socket.cc: EpollSocket::RecvMsg, WriteSome, Wakey, HandleAsyncRequest, Shutdown, Close", "util/fiber_socket_base.cc: TrySend, TryRecv, Shutdown"]}
{"id": "C53", "title": "Asynchronous writes are answered once", "statement": "AsyncWriteSome calls its callback exactly once, by the time the socket is closed at the latest; a reported count is the number of first bytes of the data the kernel took, an error means none were taken; a waiting write completes when the socket becomes writable.", "quantifier": "every history, any data", "why_tests_cant": "Races between completion, close and shutdown decide whether a callback is lost or doubled.", "anchors": ["util/fibers/epoll_socket.cc: EpollSocket::AsyncWriteSome, AsyncReq::Run, Close"]}
{"id": "C54", "title": "Receive hooks and error callbacks are called when they should", "statement": "RegisterOnRecv announces bytes that are there or arrive later, until the hook is reset or the socket closed, and never after; an error callback is called once per registration when the peer closes or an error occurs, and never after it was cancelled.", "quantifier": "every history", "why_tests_cant": "A missed notification shows up as a stalled connection in one order of events only.", "anchors": ["util/fibers/epoll_socket.cc: RegisterOnRecv, ResetOnRecvHook, RegisterOnErrorCb, CancelOnErrorCb, HandleAsyncRequest"]}
{"id": "C55", "title": "Connect tells the truth", "statement": "Connect returns success only on a connected socket, and after a failure the socket is closed (once).", "quantifier": "every history with Shutdown, Close, timeouts and resets during the attempt", "why_tests_cant": "Needs a shutdown or close racing with a connection attempt.", "anchors": ["util/fibers/epoll_socket.cc: EpollSocket::Connect"]}
{"id": "C56", "title": "A TLS socket carries its streams exactly once, in order", "statement": "Every byte of cipher text the engine produces is handed to the socket below exactly once and in order, whichever calls flush it; at most one write and one read of the socket below are in flight; blocking and non-blocking writes encrypt exactly the prefix of their bytes that they report, blocking and non-blocking reads report exactly the bytes they delivered.", "quantifier": "every answer of the TLS engine, every answer of the socket below, every history of blocking, non-blocking and asynchronous calls", "why_tests_cant": "Mixing a flush by one fiber with writes of another needs particular interleavings and partial writes below.", "anchors": ["util/tls/tls_socket.cc: WriteSome, RecvMsg, TrySend, TryRecv, HandleUpstreamWrite, HandleUpstreamRead", "util/tls/tls_socket_async.cc: AsyncWriteProgressCb", "util/tls/tls_engine.cc: Write, Read"]}
{"id": "C57", "title": "Asynchronous TLS requests are answered once, with the truth", "statement": "AsyncReadSome and AsyncWriteSome call their callback at most once; a read reports the bytes it delivered; a write's bytes are encrypted once and the count reported says how many; no request is lost or fails a CHECK, whatever else uses the socket.", "quantifier": "every history", "why_tests_cant": "Deferral behind another operation depends on the timing of completions below.", "anchors": ["util/tls/tls_socket_async.cc: AsyncReadSome, AsyncWriteSome, AsyncRoleBasedAction, RunPending, StartUpstreamRead, StartUpstreamWrite"]}
{"id": "C58", "title": "TLS calls make progress and flush", "statement": "A fiber inside a TLS call waits for an operation of the socket below or can run: the socket never waits for itself; when WriteSome returns a count its cipher text has been taken by the socket below; Shutdown returns only when no operation below is in flight; a deferred request is resumed.", "quantifier": "every history", "why_tests_cant": "A lost wake-up or an early return needs a particular order of completions.", "anchors": ["util/tls/tls_socket.cc: MaybeSendEngineOutput, HandleUpstreamRead, Shutdown", "util/tls/tls_socket.h: wait_for_write_completion, clear_io_in_progress_and_notify", "util/tls/tls_socket_async.cc: RunPending"]}
{"id": "C59", "title": "TrySend and TryRecv of a TLS socket", "statement": "They never suspend; a failed TrySend encrypted nothing, a count n means exactly the first n bytes were, and after a full count the output is taken or being written; when TryRecv says 'try again' the socket below had nothing or a flush is in flight whose completion runs the receive callback.", "quantifier": "every history, any vectors", "why_tests_cant": "A missed wake-up shows as a stalled connection in one order of events only.", "anchors": ["util/tls/tls_socket.cc: TrySend, TryRecv, StartAsyncWriteForTryRecv"]}
{"id": "C60", "title": "Vectors are pushed into the TLS engine completely and in order", "statement": "Of non-empty vectors the engine gets a prefix of their bytes, in order, in buffers that are single vectors or batches of at most 1392 bytes, and the count says how many; advancing by the count leaves the rest.", "quantifier": "any vectors, any engine", "why_tests_cant": "Batch boundaries and partial acceptance combine without limit.", "anchors": ["util/tls/tls_socket.cc: PushUserDataToEngine", "util/tls/iovec_utils.cc: AdvanceIovec"]}
{"id": "C61", "title": "Reader-writer spin lock excludes", "statement": "For any number of threads that acquire (try or blocking), release, upgrade and downgrade a reader-writer spin lock, in any interleaving: a thread that has it for writing is alone; at most one has it upgradable; a reader or upgrader gets in exactly if nobody writes and nobody has the lock upgradable, a writer exactly if nobody has it and no failed reader is still backing out; failed attempts leave nothing behind, so when all have let go the lock is as new; a downgrade lets no writer in between; and while the lock is held upgradable no new reader gets in, so promotion needs only the readers already inside to leave.", "quantifier": "all interleavings of the atomic operations of fewer than 2^29 threads, all sequences of calls", "why_tests_cant": "The lock word is changed by read-modify-write operations that are later undone (a failed reader adds and subtracts, a failed upgrader leaves its bit for the writer to clear); whether those transient changes can be lost or mistaken depends on the interleaving, which a stress test samples.", "anchors": ["base/RWSpinLock.h RWSpinLock", "base/RWSpinLock.h try_lock_shared", "base/RWSpinLock.h try_lock_upgrade", "base/RWSpinLock.h unlock_and_lock_upgrade"]}
{"id": "C62", "title": "Error callbacks on the io_uring socket", "statement": "A callback registered with RegisterOnErrorCb is called at most once, only with events the kernel reported on its own poll, always when such an event is reported while it is registered, and never after CancelOnErrorCb or Close was called on the socket, not even while the cancellation is under way. Cancelling never removes another request of the proactor, the shared callback record is never used after it was freed, and it is freed when the socket and the poll are both done with it.", "quantifier": "every interleaving of sockets registering, cancelling and closing, of other requests that reuse table positions, and of kernel completions and removals", "why_tests_cant": "the interesting cases are races between a completion already queued, a removal in flight and a reused position; tests see a few timings on one kernel", "anchors": ["util/fibers/uring_socket.cc:RegisterOnErrorCb", "util/fibers/uring_socket.cc:CancelOnErrorCb", "util/fibers/uring_socket.h:ErrorCbRefWrapper", "util/fibers/uring_proactor.cc:ProcessCqeBatch"]}
{"id": "C63", "title": "Polls with EpollAdd and EpollDel on io_uring", "statement": "Every event the kernel reports on a polled descriptor calls the callback given to EpollAdd with that event, and only such events do; while the entry exists exactly one poll of it is under way, also after the kernel ended a multishot poll. EpollDel removes only the poll of its own entry; after it returned the callback is not called, and the entry is freed once and not used afterwards.", "quantifier": "every interleaving of additions, removals, retries and other requests, and every order of kernel events, removals, -EALREADY, -ENOENT and final completions", "why_tests_cant": "the claims are about races between a removal and completions already queued, which depend on the kernel's timing", "anchors": ["util/fibers/uring_proactor.cc:EpollAdd", "util/fibers/uring_proactor.cc:RearmEpoll", "util/fibers/uring_proactor.cc:EpollDel"]}
{"id": "C64", "title": "Connection limit and life of a connection", "statement": "A listener never has more open connections than the highest limit that was in force; below the limit every accepted connection is served, at the limit it is refused without any other effect; OnConnectionStart and OnConnectionClose are called once each, in this order, and the count of open connections is exact.", "quantifier": "all numbers of threads, limits, changes of the limit, and interleavings of accepts, connection ends, migrations, traversals and shutdown", "why_tests_cant": "the counter is shared by all threads and the limit can change while connections come and go; tests see a few interleavings", "anchors": ["util/fibers/listener_interface.cc RunAcceptLoop, RunSingleConnection", "util/listener_interface.h max_clients_, open_connections_"]}
{"id": "C65", "title": "Traversals and migrations exclude each other", "statement": "While callbacks of TraverseConnectionsOnThread run, no connection is on its way between two threads and the list of the thread does not change; the callbacks are called on one page of the list in order and the call returns the connection after the page, so that pages concatenate; when no traversal is under way a migration passes at its first attempt, and a waiting traversal enters as soon as no migration is under way.", "quantifier": "all lists, limits, starting points, numbers of traversals and migrations, and interleavings", "why_tests_cant": "the gate is one atomic word with two counters, and its failures need migrations and traversals of several threads to meet at particular instructions", "anchors": ["util/fibers/listener_interface.cc TraverseConnectionsOnThread, Migrate", "util/listener_interface.h migrate_traversal_state_"]}
{"id": "C66", "title": "TraverseConnections reaches every open connection exactly once", "statement": "After TraverseConnections(cb) has returned, cb was called exactly once on every connection that was open during the whole call.", "quantifier": "all numbers of threads, connections, and interleavings with migrations", "why_tests_cant": "the traversals of the threads run at different times; a connection has to move between two of them to be missed", "anchors": ["util/fibers/listener_interface.cc TraverseConnections, TraverseConnectionsOnThread, Migrate"]}
{"id": "C67", "title": "Shutdown of a listener", "statement": "After StopAccepting every open connection is told to shut down, the listener waits for all of them to end, and when RunAcceptLoop returns no connection is left and nothing uses the listener after it was destroyed.", "quantifier": "all numbers of threads and connections, all moments of the shutdown, and all interleavings with connection ends, migrations and traversals", "why_tests_cant": "the shutdown loop of a thread is suspended inside each call of Shutdown, and connections end, migrate and are traversed meanwhile", "anchors": ["util/fibers/listener_interface.cc RunAcceptLoop, TLConnList::AwaitEmpty, RunSingleConnection, Migrate", "util/accept_server.cc Wait"]}
{"id": "C68", "title": "A periodic task runs once per expiry and never after its cancellation", "statement": "A task added with AddPeriodic is called exactly once for each expiry of its timer while it is registered, always has exactly one timer, is never called after CancelPeriodic was called for it, its timer cannot expire after CancelPeriodic returned, and its record is deleted once, after the cancellation and when no completion can refer to it; a cancellation never stops the timer of another task.", "quantifier": "all numbers of tasks, all reuses of completion-table positions, all orders of submission, expiry, removal, completion and processing", "why_tests_cant": "needs a timer that expires while its cancellation is queued, positions that are reused, or batches that mix cancelled and live timers", "anchors": ["util/fibers/proactor_base.h: AddPeriodic, CancelPeriodic, PeriodicItem", "util/fibers/proactor_base.cc: AddPeriodic, CancelPeriodic", "util/fibers/uring_proactor.cc: SchedulePeriodic, PeriodicCb, CancelPeriodicInternal, ProcessCqeBatch, ReapCompletions"]}
{"id": "C69", "title": "FiberQueueThreadPool runs each task once, on the right worker", "statement": "A task given to FiberQueueThreadPool::Add or Await is run at most once, by one worker, and each worker runs its tasks in the order in which they entered its queue; Add(index) and Await(index) run it on worker index modulo the number of workers; an undisturbed Add(f) uses the first worker with room counting round robin; Await returns only after the task has run. While the pool is open nothing gets stuck: when nothing can move, every task has run and every call has returned. Shutdown returns, and every task added before it has been run.", "quantifier": "every number of workers and callers, every queue capacity, every interleaving of callers, workers and Shutdown", "why_tests_cant": "Lost wakeups, a task enqueued twice or the race with Shutdown need particular interleavings of several threads; a test sees a few of them.", "anchors": ["util/fibers/fiberqueue_threadpool.h: FiberQueueThreadPool::Add, FiberQueueThreadPool::Await, AddAnyWorker, wrapped_idx, FiberQueue::Add, FiberQueue::TryAdd", "util/fibers/fiberqueue_threadpool.cc: FiberQueue::Run, FiberQueue::Shutdown, FiberQueueThreadPool::Shutdown"]}
{"id": "C70", "title": "Reads through the prefetch buffer return the file's bytes", "statement": "A file opened for fiber reading with a prefetch size returns, for every sequence of reads of any sizes, offsets and timings of the background prefetch, exactly the bytes the file has at the offset of each read, and every read returns. (Found false: a read elsewhere than the next offset, with prefetched bytes and no prefetch running, waits for ever; a failed prefetch of a used-up buffer makes the next read return other bytes or leave the buffer.)", "quantifier": "all files, buffer sizes, sequences of reads, times at which prefetches complete, and failures of the reads", "why_tests_cant": "The state of the buffer depends on the sizes and offsets of all earlier reads and on when the background tasks ran; tests read one pattern.", "anchors": ["util/fibers/fiber_file.cc:FiberReadFile::ReadAndPrefetch", "util/fibers/fiber_file.cc:FiberReadFile::ReadFromCache", "util/fibers/fiber_file.cc:FiberReadFile::HandleActivePrefetch", "util/fibers/fiber_file.cc:FiberReadFile::Close"]}
{"id": "C71", "title": "Metrics report what was added", "statement": "For every interleaving of increments and settings on all threads of the pool, the value reported for a label tuple is the sum over the threads of what the calls with this tuple lead to; no call uses memory outside the tables; a report made while calls run lies between what had been added before it and what was added until its end. (Found false: a thread that meets label tuples in another order than they were registered loses values and then writes outside its table; tuples whose values concatenate to the same bytes share a counter; gauges set on two threads are added.)", "quantifier": "all label tuples, hash functions, numbers of threads, interleavings of calls, of waits for the family mutex and of the steps of a report", "why_tests_cant": "Which tuple gets which number depends on the race between all threads; a unit test increments in one order on one or two threads.", "anchors": ["util/metrics/metrics.cc:SingleFamily::IncBy", "util/metrics/metrics.cc:SingleFamily::GetDenseId", "util/metrics/metrics.cc:SingleFamily::Combine", "util/metrics/family.cc:Family::Emplace", "util/metrics/family.cc:Iterate"]}
{"id": "C72", "title": "A proactor pool spreads its threads and runs a function on each of them once", "statement": "In a pool that pins its threads, thread i goes to the i-th online CPU counted round; MapCpuToThreads lists for each CPU exactly the threads whose pinning succeeded, and no online CPU has more than one thread more than its share. GetNextProactor always returns a proactor of the pool, and calls one after another go round. A call that runs a function on all threads and waits returns after each thread ran it exactly once. A pool can be run again after Stop.", "quantifier": "every set of online CPUs, pool size, result of the pinning calls, and interleaving of callers and threads", "why_tests_cant": "the set of CPUs is that of the test machine, and the races between callers of GetNextProactor depend on the schedule", "anchors": ["util/fibers/proactor_pool.cc: ProactorPool::SetupProactors, MapCpuToThreads, GetNextProactor, Run, Stop", "util/proactor_pool.h: AwaitBrief, Await, AwaitFiberOnAll"]}
{"id": "C73", "title": "Strings of a proactor pool are interned", "statement": "GetString returns bytes equal to its argument that the pool owns, the same block for equal strings and another one for others, copies each string once however many threads ask for it at a time, and never changes or moves a block it returned.", "quantifier": "every sequence of strings and every interleaving of callers", "why_tests_cant": "the second look under the write lock matters only if two threads ask for a new string at the same time", "anchors": ["util/fibers/proactor_pool.cc: ProactorPool::GetString"]}
{"id": "C74", "title": "The HTTP client sends a request once and returns the response to it", "statement": "A call of Send writes its request to the connection once, and the response it returns is the one to that request, whatever earlier calls on the same client did; a client made for TLS stays encrypted.", "quantifier": "every sequence of calls on a client, every number of tries, and every pattern of failures of writes and reads", "why_tests_cant": "with the default of one try and no failure all is well; the errors need set_retry_count or an oversized response before the next call", "anchors": ["util/http/http_client.h: Client::Send, HandleError", "util/http/http_client.cc: Client::Reconnect, TlsClient::Connect"]}
{"id": "C75", "title": "The HTTP client pool counts and hands out clients exactly", "statement": "A client of the pool is idle, or in the hands of one user, or deleted once; GetHandle hands out the client that was idle longest and a connected one, and connects only if none is idle; handles_count is the number of existing clients; the destructor deletes each of them once; the domain is split into host and port.", "quantifier": "every interleaving of GetHandle, failing and succeeding connects, closes and releases; every domain", "why_tests_cant": "the interleavings of fibers during connects and the states of many clients cannot be enumerated", "anchors": ["util/http/https_client_pool.cc: ClientPool::GetHandle, HandleGuard, ~ClientPool"]}
{"id": "C76", "title": "The cloud request sender retries what may be retried and reports the truth", "statement": "RobustSender::Send makes at most the given number of rounds, tries again only after a closed connection, a busy server, a credentials challenge or an unexpected status, returns no error only for a response that accepts the request and otherwise the error of the last round, signs each request with the newest token, and gives connections back in a state in which they can be used.", "quantifier": "every sequence of outcomes of connects, writes, reads, statuses, challenges and token refreshes", "why_tests_cant": "the sequences of failures of a remote service cannot be enumerated", "anchors": ["util/cloud/utils.cc: RobustSender::Send, IsUnauthorized, DoesServerPushback, IsResponseOK, SenderResult::~SenderResult"]}
{"id": "C77", "title": "Name resolution returns what the resolver found", "statement": "DnsResolve returns the error or an address that the resolver reported, after the report and not before; an IPv4 address is preferred if there is one; each socket of the resolver is polled for what the resolver asked for last.", "quantifier": "every answer of the resolver, every sequence of its socket notifications, and every interleaving of its thread with the fiber", "why_tests_cant": "the race between the resolver's thread and the fiber and the resolver's switches between sockets do not show in a test with a local server", "anchors": ["util/fibers/dns_resolve.cc: DnsResolve (both), DnsResolveCallback, UpdateSocketsCallback, ProcessChannel"]}
{"id": "C78", "title": "The accept server listens where it says and waits for its accept loops", "statement": "AddListener without an error means that a socket listens at one of the addresses asked for, IPv4 before IPv6, and an error is the error of one of the calls for these addresses; the same for unix sockets. Wait returns only when every accept loop that Run started has ended, and then it does return.", "quantifier": "every list of addresses, every outcome of the system calls for each, and every history of adding, running, ending and waiting", "why_tests_cant": "failures of socket creation, binding and listening depend on the state of the host, and there are too many combinations", "anchors": ["util/fibers/accept_server.cc: CreateServerSocket, AddListener, AddUDSListener, Run, Wait", "util/fibers/fiber_socket_base.cc: ListenUDS, Bind, Listen"]}
{"id": "C79", "title": "An io_uring socket owns one descriptor", "statement": "At any time the handle of an open socket is the descriptor of the file it was opened with, no two open sockets have the same descriptor, every descriptor opened is held by an open socket, Close closes exactly the socket's own file, and Shutdown keeps handle and kind. A closed socket does not count as open. A failed Connect can be tried again.", "quantifier": "every history of Create, Accept, Connect, Shutdown, Close and transfers on any number of sockets, and every choice of descriptors by the kernel", "why_tests_cant": "the packed word of descriptor and flags is right only if every path keeps it so, and reuse of descriptor numbers depends on the whole process", "anchors": ["util/fibers/uring_socket.cc: Create, Accept, Connect, Close", "util/fibers/fiber_socket_base.cc: Create, Shutdown", "util/fiber_socket_base.h: LinuxSocketBase"]}
{"id": "C80", "title": "Calls on an io_uring socket move the bytes they say, on their own connection", "statement": "Every read or write, blocking or with a callback, ends exactly once; a blocking one does not end with EAGAIN; the bytes sent on a connection are exactly those that the calls on its socket report as sent, in order, and the same for received bytes; after Shutdown or Close calls fail at once.", "quantifier": "every sequence of calls on any number of sockets, every answer of the kernel (short counts, errors, EAGAIN), every delay between preparing, submitting and completing a request, and every reuse of descriptors", "why_tests_cant": "submission is batched and completion asynchronous, so the dangerous orders with Close and descriptor reuse are hard to produce", "anchors": ["util/fibers/uring_socket.cc: WriteSome, AsyncWriteSome, AsyncReadSome, RecvMsg, Recv"]}
{"id": "C81", "title": "HTTP server: who gets which page", "statement": "If an authorization function is set, a request is answered with a page or a callback exactly when the function agrees to the path with the user and password the client has sent; otherwise only the refusal is answered. The callback registered first for a path is called with the arguments of the query; a path nobody registered is answered as unknown; registering tells whether it took effect.", "quantifier": "every server, authorization function, target, Authorization header and sequence of registrations", "why_tests_cant": "Paths, queries, headers and functors are unbounded; one test covers one path with one header.", "anchors": ["util/http/http_handler.cc HttpConnection::HandleSingleRequest", "util/http/http_handler.cc HttpConnection::CheckRequestAuthorization", "util/http/http_handler.cc HttpListenerBase::HandleRoot", "util/http/http_handler.cc HttpListenerBase::RegisterCb"]}
{"id": "C82", "title": "HTTP server: requests do not depend on how the bytes arrive", "statement": "The requests handled on a connection are those of the whole stream of bytes, each once and in order, whatever the pieces in which the socket delivers it and also if the first bytes were handed over in a buffer; an error of the buffer call is the parser's or says that more than 4096 bytes of an unfinished request were left.", "quantifier": "every parser of a stream, every stream and every way to cut it", "why_tests_cant": "The cuts of a stream and the streams are unbounded.", "anchors": ["util/http/http_handler.cc HttpConnection::ParseFromBuffer", "util/http/http_handler.cc HttpConnection::HandleRequests"]}
{"id": "C83", "title": "HTTP server: only files below the profile folder are given away", "statement": "The file page sends a file only if the name given leads to a place below the profile folder, and sends every file there that can be opened.", "quantifier": "every name, with every chain of links and dots, and every folder", "why_tests_cant": "The names and the links are unbounded and an attacker chooses them.", "anchors": ["util/http/http_handler.cc FilezHandler"]}
{"id": "C84", "title": "A short-string view stays right while its string is moved", "statement": "A view of any piece of a string, made of the string or of another view, shows the same bytes as long as the string exists unchanged, whatever strings are made, moved, assigned by moving or destroyed around it; pieces can be taken exactly when they begin inside the view.", "quantifier": "every sequence of constructions, moves, destructions and changes of strings, and every piece", "why_tests_cant": "The histories of a container and the lengths on both sides of the 15 byte limit are unbounded.", "anchors": ["base/string_view_sso.h string_view_sso", "base/string_view_sso.h string_view_sso::substr", "base/string_view_sso.h string_view_sso::ptr"]}
{"id": "C85", "title": "Dividing by multiplication gives the exact quotient", "statement": "For every divisor other than zero and every dividend of 32 or 64 bits, the division through a precomputed magic number returns exactly the quotient, on machines with or without wide arithmetic; so the bucket a cuckoo table computes for a hash is the remainder of the hash by the number of buckets, and is in range.", "quantifier": "all divisors and dividends of 32 and 64 bits; all bucket counts a table can choose", "why_tests_cant": "2^128 pairs; an error in the rounding shows for few dividends only", "anchors": ["base/libdivide.h:libdivide_u64_gen, libdivide_u64_do, libdivide_u32_gen, libdivide_128_div_64_to_64, libdivide__mullhi_u64", "base/cuckoo_map-internal.h:FromHash", "base/cuckoo_map.cc:SetBucketCount"]}
{"id": "C86", "title": "No wake-up is lost under the C++ memory model", "statement": "If a proactor waits in the kernel, and no wake-up event is there or being sent, then it has taken every task that was put into its queue, for every execution that the C++ memory model allows with the memory orders of the code (not only interleavings).", "quantifier": "all interleavings and all reads of stale values allowed by relaxed, acquire and release accesses, for any number of threads", "why_tests_cant": "the hardware that runs the tests allows few of the stale reads, and rarely", "anchors": ["util/fibers/proactor_base.h:WakeupIfNeeded, EmplaceTaskQueue", "util/fibers/epoll_proactor.cc:MainLoop", "util/fibers/uring_proactor.cc:MainLoop"]}
{"id": "C87", "title": "The one-producer one-consumer queue is race-free under the C++ memory model", "statement": "For every execution that the C++ memory model allows with the memory orders of ProducerConsumerQueue: records come out in the order they were written, nothing is lost or repeated, no access to a record races with another one, and a call reports empty (full) only if no write (read) that happens before it says otherwise. Each of the four memory orders is needed.", "quantifier": "all interleavings and all reads of stale index values, all sizes from 2 on, all records", "why_tests_cant": "x86 hardware hides missing orders, and a race detector sees only the executions that occur", "anchors": ["base/ProducerConsumerQueue.h:write, read, frontPtr, popFront"]}
{"id": "C88", "title": "The bounded multi-producer queue under C++ memory orders", "statement": "With the memory orders in the source, and for any outcome the C++ memory model allows to the loads: no element of the bounded queue is lost, returned twice, invented or returned out of claim order; a single consumer gets the values in order; no two threads access the storage of an element in a data race; a dequeue does not report an empty queue about a position whose enqueue happens before it, and an enqueue does not report a full queue about a position whose cell was freed before it. Each of the acquire and release orders in the source is needed.", "quantifier": "every number of threads, every capacity, every interleaving, every choice of message by every relaxed or acquire load that C++ release/acquire semantics allows, and both configurations (several consumers, one consumer)", "why_tests_cant": "Tests run on x86, where every load is an acquire load and every store a release store; a missing order never shows there, and neither does an outcome that only a weaker machine gives.", "anchors": ["base/mpmc_bounded_queue.h:try_enqueue", "base/mpmc_bounded_queue.h:try_dequeue", "base/mpmc_bounded_queue.h:try_dequeue_sc"]}
{"id": "C89", "title": "The intrusive queue under the C++ memory model", "statement": "Whatever messages the atomic loads read that the C++ memory model lets them read: the multi-producer intrusive queue that hands fibers to a thread returns the pushed nodes once each and in the order of their pushes, the consumer sees what the pusher wrote into a node before the push without a data race, and a pop reports an empty queue only if every push that happens before it was popped.", "quantifier": "all numbers of producers, all interleavings, all reads the release/acquire model allows, all previous contents of the links of the nodes", "why_tests_cant": "tests on x86 run with an exchange that is a full barrier; a stale read allowed by C++ may not show there", "anchors": ["base/mpsc_intrusive_queue.h:MPSCIntrusiveQueue::Push", "base/mpsc_intrusive_queue.h:MPSCIntrusiveQueue::PopWeak", "util/fibers/detail/fiber_interface.h:MPSC_intrusive_store_next", "util/fibers/detail/fiber_interface.h:MPSC_intrusive_load_next"]}
{"id": "C90", "title": "The reader-writer spin lock under the C++ memory model", "statement": "Whatever messages the operations on the lock read that the C++ memory model lets them read: accesses to data guarded by the reader-writer spin lock do not race, writers exclude all others, and an attempt to lock fails with nobody in the way only if it did not see the last operation on the lock.", "quantifier": "all numbers of threads below 2^29, all interleavings of calls and accesses, all reads the release/acquire model allows", "why_tests_cant": "a missing order shows only on some hardware and in rare interleavings; tests see a few", "anchors": ["base/RWSpinLock.h:RWSpinLock::try_lock", "base/RWSpinLock.h:RWSpinLock::try_lock_shared", "base/RWSpinLock.h:RWSpinLock::try_lock_upgrade", "base/RWSpinLock.h:RWSpinLock::unlock", "base/RWSpinLock.h:RWSpinLock::unlock_and_lock_upgrade"]}
{"id": "C91", "title": "Data guarded by the shared mutex is synchronised between threads", "statement": "If threads access data only while they hold a SharedMutex (reading it under lock, try_lock, lock_shared or try_lock_shared, writing it only under lock or try_lock), then no two accesses race in the sense of the C++ memory model: what a holder did before it unlocked happens before what the next holder does. A writer is always alone.", "quantifier": "every number of threads (below 2^30), every interleaving, every choice of values the C++ memory model lets an atomic load see", "why_tests_cant": "A missing release order shows only under weak memory orders or compiler reordering; on the machine tests run on, every read-modify-write is a full barrier.", "anchors": ["util/fibers/synchronization.h: SharedMutex::lock, SharedMutex::unlock, SharedMutex::unlock_shared, SharedMutex::try_lock, SharedMutex::try_lock_shared", "util/fibers/event_count.h: EventCount::prepareWait"]}
{"id": "C92", "title": "Wait on a blocking counter sees everything done before Dec, and is not left asleep", "statement": "For a blocking counter that is used with Add, Dec and Wait and reaches zero once: when Wait returns, everything each worker did before its Dec happens before what the waiter does next in the sense of the C++ memory model, so the waiter may read the workers' data. No waiter stays asleep once the Dec that reached zero has returned, whatever old values of the counter the memory model let it read, and a waiter that is still in its loop then succeeds in the next round.", "quantifier": "every number of workers and waiters (fewer than 2^32 threads), every interleaving, every choice of values the C++ memory model lets an atomic load see", "why_tests_cant": "The failures need a stale value read by one thread while another one notifies; on the machines tests run on, the read-modify-writes are full barriers.", "anchors": ["util/fibers/event_count.h: EmbeddedBlockingCounter::WaitCondition, EmbeddedBlockingCounter::Add, EventCount::prepareWait, EventCount::Key", "util/fibers/synchronization.cc: EmbeddedBlockingCounter::Dec", "util/fibers/synchronization.h: EventCount::await, EventCount::wait, EventCount::NotifyInternal"]}
{"id": "C93", "title": "What a fiber did is visible after Join", "statement": "When Fiber::Join returns, everything the joined fiber did happens before what the caller does next in the sense of the C++ memory model, so the caller may read data the fiber wrote without further synchronisation. Nobody returns from Join before the fiber has begun to end, nobody stays suspended in Join once the fiber has notified its joiners, and the list of joiners is never accessed by two threads at once.", "quantifier": "every number of joining threads, every interleaving, every choice of values the C++ memory model lets an atomic operation see", "why_tests_cant": "a machine with stronger ordering than C++ demands hides the missing order; the window between setting the terminated bit and the end of Terminate is a few instructions", "anchors": ["util/fibers/detail/fiber_interface.cc: FiberInterface::Terminate", "util/fibers/detail/fiber_interface.cc: FiberInterface::Join", "util/fibers/fibers.cc: Fiber::Join"]}
{"id": "C94", "title": "Handles of fibers and of Done destroy the shared object exactly once, after everything done through any handle", "statement": "However handles of a fiber or of a Done are copied, moved between threads, used and dropped: while a handle exists the object exists; the object is destroyed exactly once, by the thread that drops the last handle; everything any thread did through a handle happens before the destruction in the sense of the C++ memory model; neither the object nor its counter is touched afterwards.", "quantifier": "every number of threads and (below 2^32) of handles, every sequence of copies, moves, uses and drops, every choice of values the C++ memory model lets an atomic operation see", "why_tests_cant": "the destructor runs on one thread while another has just dropped its handle; whether its accesses are ordered depends on memory orders a test on one machine does not exercise", "anchors": ["util/fibers/detail/fiber_interface.h: intrusive_ptr_add_ref, intrusive_ptr_release", "util/fibers/synchronization.h: Done::Impl"]}
{"id": "C95", "title": "The value of a future is handed over between threads", "statement": "When Get or GetFor of a future returns the value, or GetRef returns, everything the thread did before it called Resolve happens before what the caller does with the value, on the memory model of C++: accesses to the value do not race. At most one call of Get or GetFor gets the value, and none before Resolve has stored it.", "quantifier": "Any number of threads calling Get, GetFor or GetRef, every interleaving of the atomic accesses and every message each access may read.", "why_tests_cant": "Races depend on the memory model of the hardware and the compiler; on x86 the exchange is a full barrier and the defect cannot be seen in a test.", "anchors": ["util/fibers/future.h: Future::Get, GetRef, GetFor, Resolve", "util/fibers/synchronization.h: EventCount::await, await_until"]}
{"id": "C96", "title": "WaitFor on a blocking counter that returns true synchronises with the workers", "statement": "When WaitFor or WaitUntil of a blocking counter returns true, what the workers did before Dec happens before what the caller does next, as it is for Wait.", "quantifier": "Any number of workers and waiters, every interleaving and every message each access may read.", "why_tests_cant": "Depends on the memory model of hardware and compiler; not visible on x86.", "anchors": ["util/fibers/synchronization.cc: EmbeddedBlockingCounter::WaitUntil", "util/fibers/event_count.h: EmbeddedBlockingCounter::WaitFor", "util/fibers/synchronization.h: EventCount::await_until"]}
{"id": "C97", "title": "The contract of the event count on the C++ memory model", "statement": "For any client: if a thread is asleep in an event count and a notifyAll has returned, then everything the sleeping thread read to evaluate its condition (since it took its key) is at least as new as what the notifying thread had written or seen before it called notifyAll; for notify the same unless it woke another thread. notifyAll wakes everyone in the queue, notify exactly one if someone sleeps; a notification that reports no waiters found none asleep. For fewer than 2^32 threads and fewer than 2^32 notifications per evaluation of a condition.", "quantifier": "Any number of threads, any client program (arbitrary atomic accesses to arbitrary locations), every interleaving, every message each access may read, time limits at any moment.", "why_tests_cant": "The interesting executions need weakly ordered hardware and windows of a few instructions; the client is universally quantified.", "anchors": ["util/fibers/event_count.h: EventCount::prepareWait, Key::~Key", "util/fibers/synchronization.h: EventCount::NotifyInternal, wait, await", "util/fibers/synchronization.cc: EventCount::wait_until"]}
{"id": "C98", "title": "S3 file over the AWS SDK: what is closed is what was written", "statement": "When Close of an S3 file succeeds, the object is the concatenation, in order, of all data of the WriteSome calls that succeeded and of a prefix of the data of each call that failed, whatever upload requests failed, were lost, or took effect although their answer was an error. WriteSome returns the total length of its entries. All parts but the last have the part size, the last is not empty. A failed upload is tried again by the next call. Repeating a failed WriteSome with the same data puts its first bytes into the object twice, and a part size of 0 makes a write loop for ever.", "quantifier": "every part size, sequence of writes with any entries, every pattern of failing requests", "why_tests_cant": "The pattern of failing, lost and half-done requests over a history is unbounded, and the tests need a live service.", "anchors": ["util/aws/s3_write_file.cc:S3WriteFile::WriteSome", "util/aws/s3_write_file.cc:S3WriteFile::Flush", "util/aws/s3_write_file.cc:S3WriteFile::Close"]}
{"id": "C99", "title": "S3 file over the AWS SDK: what is read is the object", "statement": "Successive reads of an S3 file return the object's bytes in order, each read as many as asked for unless the end is reached, and 0 bytes only at the end; an error loses nothing; the offset argument selects the position; an empty object reads as empty. (The first holds as long as no read fails; the code breaks the last three.)", "quantifier": "every object, chunk size, sequence of reads with any entries, every pattern of failing requests and of short answers", "why_tests_cant": "The pattern of chunk boundaries, short answers and failures over a history is unbounded, and the tests need a live service.", "anchors": ["util/aws/s3_read_file.cc:S3ReadFile::Read", "util/aws/s3_read_file.cc:S3ReadFile::DownloadChunk", "util/aws/s3_read_file.cc:S3ReadFile::NextByteRange", "util/aws/s3_read_file.cc:S3ReadFile::ParseFileSize"]}
{"id": "C100", "title": "Cloud object readers return the object", "statement": "Successive reads of a GCS, Azure or S3 object return its bytes in order, each as many as asked for unless the end is reached, and 0 bytes only at the end; a connection that breaks is an error, never a short read; an error loses nothing; the process does not abort on what the service sends; the offset selects the position. (The code breaks the last three: bytes of the same call are lost on an error, GCS aborts after an answer without a length, offsets are ignored.)", "quantifier": "every object, sequence of reads with any entries, every behaviour of the connection", "why_tests_cant": "How a body is split over reads and where a connection breaks is unbounded, and the tests need a live service.", "anchors": ["util/cloud/gcp/gcs_file.cc:GcsReadFile::Read", "util/cloud/azure/storage.cc:ReadFile::Read", "util/cloud/azure/storage.cc:ReadFile::InitRead", "util/cloud/aws/s3_storage.cc:ReadFile::Read"]}
{"id": "C101", "title": "Requests to cloud storage name exactly the object that was asked for", "statement": "The request targets that the Google, Azure and Amazon clients build are read by the server as the given bucket or container and exactly the given object name, prefix, limit and page token, for every name including ones with slashes, spaces, percent and question marks; requests for different objects have different targets; the path and the query that are signed for Amazon are the ones its signature scheme prescribes; the names of the blocks of an Azure blob are different and equally long.", "quantifier": "every object name, prefix and token (any bytes), every bucket name that stands for itself, every limit, both addressing styles, any number of blocks", "why_tests_cant": "names are arbitrary byte strings; tests use a few harmless ones", "anchors": ["util/cloud/gcp/gcs_file.cc:BuildGetObjUrl", "util/cloud/gcp/gcs_file.cc:OpenWriteGcsFile", "util/cloud/gcp/gcs.cc:GCS::List", "util/cloud/azure/storage.cc:BuildObjectUrl", "util/cloud/azure/storage.cc:Storage::List", "util/cloud/azure/storage.cc:WriteFile::PrepareUploadBlockReq", "util/cloud/aws/s3_storage.cc:BucketObjectPath", "util/cloud/aws/s3_storage.cc:S3Storage::List", "util/cloud/aws/aws_creds_provider.cc:CanonicalUri", "util/cloud/aws/aws_creds_provider.cc:CanonicalQueryString"]}
{"id": "C102", "title": "Log files have every message once", "statement": "However many threads log at once, each log file has every message of its severity or a higher one exactly once, whole and unmixed, and each thread's messages in the order in which it logged them, across rotations; messages above the buffered level are in the file when the call that logs them returns, fewer than a million bytes are ever buffered and none for longer than the configured time; a flush leaves nothing buffered; files do not grow past the limit by more than a line; a failing file stops alone.", "quantifier": "every number of threads, every interleaving, every sequence of messages, flushes and rotations, every time of the steps, every failure of a call", "why_tests_cant": "interleavings, clock positions and failing calls cannot be enumerated", "anchors": ["base/file_log_sink.cc:FileLogSink::Send", "base/file_log_sink.cc:FileLogSink::Flush", "base/file_log_sink.cc:FileLogSink::LogFile::Open", "base/file_log_sink.cc:FileLogSink::LogFile::WriteAndMaybeFlush", "base/file_log_sink.cc:FileLogSink::LogFile::FlushLocked", "base/file_log_sink.cc:FileLogSink::LogFile::Close"]}
{"id": "C103", "title": "Reading through the decompressor gives the decompressed stream", "statement": "Reads from the zstd source, with buffers of any lengths and however the upstream source cuts its bytes, return the decompressed stream in order, without loss or repetition; a read returns less than it has room for only at the end of the stream; no read ends the process; a stream that is cut short is reported as an error; an error loses no bytes.", "quantifier": "every compressed stream, every way to cut it into upstream reads, every sequence of buffer lengths, every decoder that keeps the library's contract", "why_tests_cant": "cuts of the stream against block and frame boundaries cannot be enumerated", "anchors": ["io/zstd_sinksource.cc:ZStdSource::ReadSome"]}
{"id": "C104", "title": "Status variables: the registry and the JSON page", "statement": "Status variables can be created and destroyed in any order and iterating visits exactly those that exist and have a name, each once. The JSON status page is the JSON text of one object with all of them in that order and the time last.", "quantifier": "Every sequence of creations and destructions, every set of variables, names and values (nested maps of any depth included), every time.", "why_tests_cant": "Bugs in a linked list show only for some orders of destruction, and a page that is not JSON only for some names and values.", "anchors": ["base/varz_node.cc:VarzListNode", "base/varz_node.cc:VarzListNode::Format", "base/varz_value.h:VarzValue", "util/http/status_page.cc:BuildStatusPage"]}
{"id": "C105", "title": "Signed cloud requests are accepted", "statement": "A request that is signed with credentials of Amazon (signature version 4) or of Azure (shared key) is accepted by a service that knows the key and checks the signature as its documentation says, and nothing else of the request is changed. A request can be signed again, later or with newer credentials, with the result that signing it once would give. A bearer token is in the one Authorization header; a shared access signature is added to the arguments once.", "quantifier": "every method, target, list of headers, key, token and time", "why_tests_cant": "The signature covers every byte of the request: a header, a name or a value out of order is rejected only by the real service, and only for the requests that have it.", "anchors": ["util/cloud/aws/aws_creds_provider.cc: Sign, HexEncode", "util/cloud/azure/azure.cc: ComputeSignature, Sign, AddSasToTarget, TargetHasSasSignature", "util/cloud/gcp/gcs.cc: Sign", "util/cloud/utils.h: SetHeader"]}
{"id": "C106", "title": "Listings are complete", "statement": "Listing the objects of a bucket reports every object and every common prefix of every page exactly once, page after page, and ends when the service says that there is no other page; pages in between may be empty. If a request fails, the error is returned and the pages before were reported whole. The buckets of an account are reported too, whatever the number of pages.", "quantifier": "every sequence of pages a service may answer with, of any number and size, and every point where a request fails", "why_tests_cant": "A test has a bucket with a few objects; listings are cut into pages only for large buckets, and pages without objects come when many were deleted.", "anchors": ["util/cloud/gcp/gcs.cc: List, ListBuckets", "util/cloud/azure/storage.cc: ParseXmlListBuckets, ParseXmlListBlobs, ListContainers, List", "util/cloud/aws/s3_storage.cc: ParseXmlListBuckets, ParseXmlListObjects, ListBuckets, List"]}
{"id": "C107", "title": "Credentials are refreshed by one fiber at a time", "statement": "However many fibers send requests with the same credentials, at most one of them fetches new credentials at a time; no fiber waits for ever, and none waits for a refresh that has ended; a call that waited in vain returns a timeout, at least 30 seconds after it began. RefreshIfExpiring returns true only if the credentials are newer than at the call, and RefreshToken returns no error only if a refresh ended during the call.", "quantifier": "every number of fibers, every interleaving of their calls, every outcome of the fetches and every passage of time", "why_tests_cant": "Refreshes happen once an hour; two fibers in one at the same time, with a failing fetch, do not occur in a test.", "anchors": ["util/cloud/aws/aws_creds_provider.cc: RefreshToken, RefreshTokenImpl, RefreshIfExpiring", "util/cloud/aws/aws_creds_provider.h: IsExpiring", "util/cloud/utils.cc: RobustSender::Send"]}
{"id": "C108", "title": "Azure credentials come from where the documentation says and for the account asked for", "statement": "Credentials::Init of Azure tries the connection string, then the key or signature of the environment, then the managed identity, and after it succeeds exactly one kind of credentials is in use: a non-empty key, a non-empty signature, or a token. A connection string is read whatever the order, the case of its names and the blanks in it; with an account and a key the requests are signed as that account and go to its endpoint; an explicit endpoint is taken as written (scheme, host, port, path). If an account is asked for, that account is in use and the connection string of another account is not. When nothing works, Init reports it and no credentials stay. A refresh changes only the token and its time, and the token is never taken to last longer than the service said. A credential's endpoint is the one its source names.", "quantifier": "every environment, connection string, reply of the metadata service, requested account and earlier state", "why_tests_cant": "environments and connection strings are unbounded texts and the sources interact; tests try six of them", "anchors": ["util/cloud/azure/azure.cc:Credentials::Init", "util/cloud/azure/azure.cc:TryConnectionString", "util/cloud/azure/azure.cc:TryEnvSharedKey", "util/cloud/azure/azure.cc:TryManagedIdentity", "util/cloud/azure/azure.cc:ParseConnectionStringKV", "util/cloud/azure/azure.cc:ParseEndpointHost", "util/cloud/azure/azure.cc:ResolveServiceEndpointFromEnv", "util/cloud/azure/azure.cc:RefreshToken"]}
{"id": "C109", "title": "Random number generators have full period and independent streams", "statement": "Whatever the seed, 2^64 consecutive results of SplitMix64 are all the 64-bit numbers, once each. A Xoroshiro128p, however it was made or seeded, never reaches the all-zero state; it returns to a state only after 2^128-1 calls, passes through every other state meanwhile and returns every number equally often (zero once less). jump() is equivalent to 2^64 calls, so that 2^64 generators each one jump after the other can make 2^64 calls without meeting.", "quantifier": "Every seed, every state, every number of calls and of jumps.", "why_tests_cant": "The periods are 2^64 and 2^128-1: no run reaches them, and two streams that meet show it only after up to 2^64 calls.", "anchors": ["base/random.h: SplitMix64, Xoroshiro128p::operator(), seed, jump"]}
{"id": "C110", "title": "Measured time is exact and saturates", "statement": "Conversions between microseconds and cycles are exact up to rounding down, for all times. Usec1ms and Usec10ms report the time of the measurements that ended in the current millisecond and in the current ten milliseconds, at most 1000 and 10000, whatever was measured; IsOverloaded compares them with the given share.", "quantifier": "Every frequency of the counter, every history of measurements of a thread and every share of the cpu.", "why_tests_cant": "Errors need long measurements (seconds), long times (hours) or particular sequences of milliseconds.", "anchors": ["base/cycle_clock.h: CycleClock, RealTimeAggregator, CpuTimeGuard", "base/init.cc: InitOnce, RealTimeAggregator::Add"]}
{"id": "C111", "title": "The kernel does what a submission entry was prepared for", "statement": "Whatever request is prepared in an entry obtained from the proactor, the kernel reads in it that request with the same arguments, and the number by which its completion finds the callback is kept.", "quantifier": "Every request and all its arguments.", "why_tests_cant": "Fields share memory and have 32 bits: an error shows only for particular operations and for lengths over 4 GiB.", "anchors": ["util/fibers/submit_entry.h: all Prep functions", "util/fibers/uring_proactor.cc: GetSubmitEntry"]}
{"id": "C112", "title": "The operations of a LinuxFile act on its file", "statement": "Every read, write, allocation and sync of a LinuxFile is for the file it was opened on, with the offset, size and buffer given, whether or not its descriptor is registered with the ring; GetFd is that file's descriptor, and Close closes it and frees its registration and no other.", "quantifier": "Every table of registered descriptors that opening and closing can lead to, every file and operation.", "why_tests_cant": "It depends on the history of the table of registered descriptors; a wrong file with the same number is only seen if it exists.", "anchors": ["util/fibers/uring_file.cc: LinuxFile", "util/fibers/uring_file.h", "util/fibers/uring_proactor.cc: RegisterFd, UnregisterFd, TranslateDirectFd"]}
{"id": "C113", "title": "Murmur hashes are the published function and spread evenly", "statement": "MurmurHash3_x86_32 reads exactly the bytes it is given and returns the published MurmurHash3 value for every length and seed. Inputs of one length that differ within a single aligned four-byte block never collide, distinct seeds never give the same hash of the same bytes, and for an integer key every hash belongs to exactly one lower half for each upper half. Murmur32 of a string covers all its bytes. A fingerprint is never 0 or 1.", "quantifier": "all byte strings of every length, all seeds, all 64-bit integers, every result of the underlying XXH64", "why_tests_cant": "2^32 seeds times unboundedly many strings; absence of collisions is a statement about all pairs of inputs", "anchors": ["base/hash.cc: MurmurHash3_x86_32, fmix, Fingerprint", "base/hash.h: Murmur32, Fingerprint, Fingerprint32"]}
{"id": "C114", "title": "Hashing several values tells different tuples apart", "statement": "XXHash64 of a tuple, pair or list of values feeds different bytes to the hash function for different tuples of the same type, so two different tuples collide only if the hash function itself collides.", "quantifier": "all tuples of integers, enums, strings and optionals, all hash functions", "why_tests_cant": "pairs of tuples are unbounded; a test with random tuples does not hit adjacent strings whose concatenation agrees", "anchors": ["base/hash.h: HashAppend, XXHash32, XXHash64, TupleHash"]}
{"id": "C115", "title": "Module initializers run once, before the guard is constructed", "statement": "The functions registered with REGISTER_MODULE_INITIALIZER run exactly once when the first MainInitGuard is constructed and those of REGISTER_MODULE_DESTRUCTOR once when the last one is destroyed, last registered first; while any guard exists the initializers have run; nested guards change nothing.", "quantifier": "all lists of registrations, all numbers of guards and threads, all nestings and interleavings", "why_tests_cant": "the order of the constructions and the interleavings are unbounded", "anchors": ["base/init.cc: ModuleInitializer, MainInitGuard", "base/init.h: REGISTER_MODULE_INITIALIZER"]}
{"id": "C116", "title": "Subscriptions to an event count are told", "statement": "Once a condition has been set and the notifyAll that follows has returned, every subscription made with check_or_subscribe while the condition was false has had its callback called exactly once, with no notification lost between the check and the subscription. A persistent subscription is called exactly once by every notifyAll that begins and ends while it is held. No callback runs after the destructor of its SubKey has returned, and a subscription that is over leaves nothing behind.", "quantifier": "all numbers of subscribers and notifiers, all interleavings of their atomic steps", "why_tests_cant": "the window between the check and the link is a few instructions wide; schedules and numbers of parties are unbounded", "anchors": ["util/fibers/event_count.h: EventCount::check_or_subscribe, subscribe_persistent, SubKey", "util/fibers/synchronization.h: EventCount::subscribe, unsubscribe", "util/fibers/detail/wait_queue.cc: WaitQueue::NotifyOne, NotifyAll"]}
{"id": "C117", "title": "Signal callbacks run once, on their proactor", "statement": "A callback registered with RegisterSignal for a list of signals is called exactly once for every arrival of a registered signal, with the number of that signal, on the proactor it was registered with, in order of arrival; signals that are not registered call nothing.", "quantifier": "all orders of registrations, clearings, arrivals and runs of dispatched callbacks, any signals, proactors and callbacks", "why_tests_cant": "A test raises a registered signal and waits for the callback; a clearing between the arrival and the run of the callback needs a schedule of the signal and the proactor that tests do not produce.", "anchors": ["util/fibers/proactor_base.cc: RegisterSignal, ClearSignal, SigAction", "util/fibers/accept_server.cc: AcceptServer::AcceptServer, ~AcceptServer"]}
{"id": "C118", "title": "Range adapters yield each value once, in order", "statement": "A for loop over Transform, Wrap or WithIndex of a range ends and sees, for every value of the underlying range in order, the result of exactly one call of the function on it (for WithIndex the pair of its position and the value); adapters can be stacked, and the iterators behave as forward iterators.", "quantifier": "all functions, also with mutable state, all ranges that yield a list, any nesting of adapters, both alternatives of a variant", "why_tests_cant": "Tests iterate a few containers; stacking and mutable function objects are not exercised, nor is dereferencing twice.", "anchors": ["base/iterator.h: CompoundIterator, Range, Transform, Wrap, WithIndex"]}
{"id": "C119", "title": "Dispatching to a full queue loses nothing and gets through", "statement": "A task given to DispatchBrief is accepted exactly once when the call returns and not before; accepted tasks start in order; a caller that waits because the queue is full is woken whenever tasks were run, and gets in with steps of the proactor's loop and its own only. DispatchLocalBrief never waits for anybody. Migrating fibers never stops a proactor.", "quantifier": "every capacity, any number of proactors, callers and migrations, all interleavings of attempts, waits, runs of tasks and notifications", "why_tests_cant": "A lost wake-up needs a caller between its failed attempt and its wait while the loop notifies; mutual migration needs two full queues at once.", "anchors": ["util/fibers/proactor_base.h: DispatchBrief, DispatchLocalBrief, EmplaceTaskQueue", "util/fibers/proactor_base.cc: ProactorBase::Migrate", "util/fibers/epoll_proactor.cc: EpollProactor::MainLoop", "util/fibers/uring_proactor.cc: UringProactor::MainLoop"]}
{"id": "C120", "title": "The TLS handshake moves bytes faithfully, ends with everything sent and says why it failed", "statement": "TlsSocket::Accept and Connect give the TLS engine exactly the bytes passed to InitSSL followed by what the peer sent, in order, and send to the peer what the engine put out, once and in order. They return success only after the engine finished the handshake, and then nothing it put out is left unsent. They return an error exactly for the last thing that happened: the engine giving up, a failed connect, write or read of the socket below, or the peer's end of stream. A closed socket is connected at most once, before the first byte is sent, an open one never. A call does not spin when the engine asks to write only with something to write. (That what the engine put out is sent before every return, so that the peer learns of protocol errors, is false.)", "quantifier": "every engine behaviour, all splits, errors and ends of the streams below, all initial bytes, any number of rounds", "why_tests_cant": "tests run one TLS library against well-behaved peers on a local connection; partial writes, errors in the middle of the handshake and rejections do not occur in them", "anchors": ["util/tls/tls_socket.cc: TlsSocket::Accept, Connect, InitSSL, MaybeSendEngineOutput, HandleUpstreamWrite, HandleUpstreamRead, HandleEngineOp", "util/tls/tls_engine.cc: Engine::Handshake"]}
{"id": "C121", "title": "Per-second rates and per-key averages of a pool report what was added in the window", "statement": "VarzQps shows the number of Inc calls on all threads of the pool in the last six complete seconds, divided by six and rounded down. VarzMapAverage reports, for every key that was ever used on some thread, the number of the IncBy calls of the last seven seconds, their sum and, if there are any, their average, and nothing else; the entries of a key add up to all that was added to it. (That a key has one entry is false: it has one per thread that used it.)", "quantifier": "all histories of increments and reads on any number of threads and keys, with times that do not decrease", "why_tests_cant": "tests add a few values on one thread and read them within a second", "anchors": ["util/varz.h: VarzQps, VarzMapAverage", "util/fibers/varz.cc: GetData, FindSlow, ProactorThreadIndex", "util/sliding_counter.h: SlidingCounterDist"]}
{"id": "C122", "title": "A socket owns one descriptor while it is open and none when it is closed", "statement": "After any sequence of Create, Bind, Listen, ListenUDS, Shutdown, TrySend, TryRecv, Close, SetProactor, Detach and destruction, whatever system calls fail: an open socket owns exactly one descriptor and a closed one none, so that none leaks and none is closed twice; every system call is about the descriptor owned then. A failed Bind or Listen leaves the socket closed. IsOpen says whether the socket was opened and not shut down or closed since; if not, TrySend and TryRecv fail without a system call. An open socket knows whether it is a unix socket. (A closed one claims to be one; a socket that got its proactor between Create and Listen crashes in Listen; paths of 107 characters are refused though they fit.)", "quantifier": "all histories of calls and all answers of the kernel", "why_tests_cant": "tests open a few sockets on a system where nothing fails", "anchors": ["util/fibers/fiber_socket_base.cc: LinuxSocketBase::Create, Bind, Listen, ListenUDS, Shutdown, TrySend, TryRecv, ~LinuxSocketBase, FiberSocketBase::SetProactor", "util/fiber_socket_base.h: LinuxSocketBase", "util/fibers/epoll_socket.cc: EpollSocket::Close, OnSetProactor, OnResetProactor"]}
{"id": "C123", "title": "Switch hooks see every switch of their fiber", "statement": "A fiber that has set a switch hook has the hook called with SUSPEND each time before it stops running and with RESUME each time before it runs again, also on another thread, each exactly once, with the hook set last; the hook is called at no other time, and no code of the fiber runs between the two calls.", "quantifier": "All numbers of threads, all sequences of switches between fibers, migrations and changes of hooks", "why_tests_cant": "A test sees a few switches; the pairing must hold for every order of switches on all threads.", "anchors": ["util/fibers/detail/fiber_interface.cc: SwitchTo, SwitchToAndExecute, SwitchSetup, FiberSwitchHook::Run", "util/fibers/detail/fiber_interface.h: SetSwitchHook", "util/fibers/fibers.h: ThisFiber::SetSwitchHook"]}
{"id": "C124", "title": "Counts of worker fibers", "statement": "On every thread WorkerFibersCount is the number of worker fibers that are on the thread and have not finished and WorkerFibersStackSize the sum of their stack sizes, also when fibers migrate; a thread ends with the fatal error about remaining worker fibers exactly if there are some; stack traces of a thread are printed once for each of its fibers.", "quantifier": "All histories of fibers starting, migrating, finishing and being released on any number of threads", "why_tests_cant": "Counters that drift by one show only after long histories with migration.", "anchors": ["util/fibers/detail/scheduler.cc: Attach, DetachWorker, ScheduleTermination, DestroyTerminated, ~Scheduler", "util/fibers/fibers.h: WorkerFibersCount, WorkerFibersStackSize", "util/fibers/proactor_base.cc: Migrate"]}
{"id": "C125", "title": "A fiber is joined or detached once, through its one handle", "statement": "No fiber is held by two Fiber objects; a fiber that was started is held by one object or was joined or detached exactly once; when all objects are destroyed every fiber was joined or detached exactly once; it is joined only after its function returned; calls crash exactly when handles are misused.", "quantifier": "All sequences of starting, moving, swapping, joining, detaching and destroying fiber objects", "why_tests_cant": "Tests exercise a few orders of moves and joins.", "anchors": ["util/fibers/fibers.h: Fiber", "util/fibers/fibers.cc: ~Fiber, operator=, Detach, Join, JoinIfNeeded", "util/fibers/detail/fiber_interface.cc: Join"]}
{"id": "C126", "title": "The Zipf generator draws items of its range with Zipf frequencies", "statement": "ZipfianGenerator::Next returns only items between min and max, a larger random number never gives a smaller item, every item can be drawn, and the two most frequent items are drawn with exactly the probabilities of the Zipf distribution.", "quantifier": "All ranges of at least two items, all constants below 1, all random numbers in [0, 1)", "why_tests_cant": "Tests draw samples; the bounds must hold for every random number, also next to 0 and 1.", "anchors": ["base/zipf_gen.h: ZipfianGenerator, Next, Eta, Zeta"]}
{"id": "C127", "title": "Requests of the AWS SDK use one connection, closed on every path", "statement": "A request made through the HTTP client of the AWS SDK opens at most one connection and closes it exactly once, as the last thing, whether or not a step fails; a response other than a network error is the one the server sent after it was sent the complete request; a network error is reported exactly if a step failed. Writing through the stream adapter sends all bytes in order or a part from the beginning with an error; the adapter's error variable is set exactly if the operation failed.", "quantifier": "All answers of DNS, the socket and the TLS handshake, all requests and responses", "why_tests_cant": "Tests see the paths on which nothing fails; partial writes and failures at each step are many.", "anchors": ["util/aws/http_client.cc: MakeRequest, Connect, Resolve", "util/asio_stream_adapter.h: read_some, write_some"]}
{"id": "C128", "title": "Background fibers neither starve nor crowd out normal ones", "statement": "While normal-priority fibers keep a thread busy, ready background fibers still get a turn: they wait for at most 25 ms of normal running and a round, whatever the warrant percentage. In return background fibers get no more than the configured percentage of the thread plus one background round per 10 ms; each background round exceeds its budget by at most one stretch between preemption points; a background fiber that yields within its budget goes on at once and otherwise hands the thread back, sleeping at most 1.5 ms and only on an idle thread.", "quantifier": "every set of fibers and priorities, every sequence of yields, suspensions and wake-ups, every timing and configuration", "why_tests_cant": "The bound is over all histories of rounds and clock readings; a test sees a few timings of a few fibers.", "anchors": ["util/fibers/detail/scheduler.cc: Scheduler::Run, RunReadyFibersInternal, Preempt", "util/fibers/detail/scheduler.h: Config"]}
{"id": "C129", "title": "The io_uring proactor asks of the kernel only what its version has", "statement": "The kernel release string is read as its three version numbers whatever follows them; on kernels older than 5.8, or with a ring size that is not a power of two of at least 8, starting the proactor stops the process; otherwise every setup flag and feature it uses exists in that kernel, the combination of flags is one the kernel accepts, and a newer kernel gets every feature an older one gets.", "quantifier": "every release string of three numbers with any suffix, every ring size", "why_tests_cant": "Tests run on one kernel; the claim is over all versions and release strings.", "anchors": ["base/proc_util.cc: GetKernelVersion", "util/fibers/uring_proactor.cc: UringProactor::Init"]}
{"id": "C130", "title": "AWS credentials come whole from the first source that has them", "statement": "The credential chain returns key, secret and token of one source: the first enabled one, in the documented order, that has both a key and a secret; it asks no source after that, never asks the container endpoint without a configured address nor the metadata service when it is disabled in any letter case; with none it returns empty credentials. With a custom S3 endpoint the address is scheme, endpoint and bucket, different for different buckets; otherwise only the scheme of the SDK's address changes.", "quantifier": "every environment, every set of answers of the sources, every endpoint and list of request parameters", "why_tests_cant": "The claim is over all combinations of available sources and parameters; tests run with the credentials of one machine.", "anchors": ["util/aws/credentials_provider_chain.cc: CredentialsProviderChain", "util/aws/s3_endpoint_provider.cc: S3EndpointProvider::ResolveEndpoint"]}
{"id": "C131", "title": "The profiling page tells the truth", "statement": "A request to start profiling starts a profile only if none is being written and otherwise says so; a request to stop redirects to the profile that was running, which is then complete, or says that profiling is off; and the thread that serves a request never touches the response after the handler has returned it.", "quantifier": "every sequence and interleaving of requests, each on its own thread", "why_tests_cant": "Requests interleave at any access to the shared state; tests make one request at a time.", "anchors": ["util/http/profilez_handler.cc: ProfilezHandler, HandleCpuProfile"]}
{"id": "C132", "title": "Registered io_uring buffers never overlap", "statement": "The slices that RequestBuffer and RequestRegisteredSlice hand out and that were not returned yet are page aligned, lie inside the memory registered by RegisterBuffers and share no byte. A slice has at least the requested size and less than a page more. Requests before a registration are refused; a request whose pages are free before or after all held slices succeeds; a returned slice is free again. A failed registration, and any registration after a successful one, reports an error and changes nothing. The destructor unmaps exactly what was mapped.", "quantifier": "all histories of registrations, requests and returns of held slices, all sizes, all results of mmap and of the kernel", "why_tests_cant": "The overlaps depend on the order of requests and returns and on boundary sizes up to 2^64; tests use a handful of sizes on one pool.", "anchors": ["util/fibers/uring_proactor.cc: UringProactor::RegisterBuffers", "util/fibers/uring_proactor.cc: UringProactor::RequestBuffer", "util/fibers/uring_proactor.cc: UringProactor::ReturnBuffer", "util/fibers/uring_proactor.cc: UringProactor::RequestRegisteredSlice", "util/fibers/uring_proactor.cc: UringProactor::ReturnRegisteredSlice"]}
{"id": "C133", "title": "A program knows its own file name", "statement": "ProgramAbsoluteFileName returns the path the program was started from, also after its file was deleted or replaced, and ProgramBaseName returns the part after the last slash. Both always return.", "quantifier": "all paths, with the file still there or not", "why_tests_cant": "The paths are unbounded and the deleted case depends on what happens to the file while the program runs; tests run from one path.", "anchors": ["base/logging.cc: ProgramAbsoluteFileName", "base/logging.cc: ProgramBaseName"]}
{"id": "C134", "title": "The multishot receive hook of a uring socket", "statement": "On a uring socket with multishot enabled, the callback of RegisterOnRecv is given exactly the data that arrived, in order, until it is told once that the stream was closed or failed, with a positive error code; the hook is kept up when the kernel stops the request or has no free buffer. After ResetOnRecvHook, Close or the destruction of the socket the callback is not called and the socket is not used. A second registration without a reset is refused.", "quantifier": "all histories of registrations, resets, closes and destruction, also from inside the callback, and all completions the kernel can give, at any time", "why_tests_cant": "It depends on when the kernel completes requests relative to resets and destruction, and on the kernel stopping requests or running out of buffers.", "anchors": ["util/fibers/uring_socket.cc: UringSocket::RegisterOnRecv", "util/fibers/uring_socket.cc: UringSocket::ResetOnRecvHook", "util/fibers/uring_socket.cc: UringSocket::Close", "util/fiber_socket_base.h: RecvNotification"]}
{"id": "C135", "title": "The statistics of fiber switches are what happened", "statement": "FiberSwitchEpoch is the number of fiber switches of the thread, FiberSwitchDelayUsec the time fibers were ready before they ran, FiberLongRunCnt and FiberLongRunSumUsec the number and total time of runs longer than a millisecond (waiting for I/O not counted), GetPreemptCount the number of times a fiber was suspended, and GetPastFiberNames the last fibers that ran since the thread became active.", "quantifier": "all sequences of fibers becoming ready, switches and returns from I/O, and all values of the cycle counter", "why_tests_cant": "The numbers depend on the whole history and on the cycle counter; tests check that they are not zero.", "anchors": ["util/fibers/detail/fiber_interface.cc: FiberInterface::SwitchSetup", "util/fibers/detail/fiber_interface.cc: FiberSwitchDelayUsec", "util/fibers/detail/fiber_interface.cc: FiberLongRunCnt", "util/fibers/detail/fiber_interface.cc: FiberLongRunSumUsec", "util/fibers/detail/fiber_interface.cc: GetPastFiberNames", "util/fibers/detail/fiber_interface.cc: ResetFiberRunSeq"]}
{"id": "C136", "title": "The idle ratio is between 0 and 1 and periodic tasks run on time", "statement": "The idle ratio that a proactor thread reports is a number between 0 and 1: it is 0 at first and later the share of a past window of more than five seconds that the thread spent waiting, and it is refreshed at the first wait that ends more than five seconds after the window. The periodic tasks (freeing ended fibers, waking sleeping ones) run when 10 microseconds have passed since they last ran, and not more often, also when the cycle counter is set back.", "quantifier": "all histories of waits and of calls, all counter values", "why_tests_cant": "The window depends on when waits happen to end, and the counter goes back only when a machine is suspended or migrated.", "anchors": ["util/fibers/proactor_base.cc:ProactorBase::IdleEnd", "util/fibers/proactor_base.cc:ProactorBase::RunL2Tasks", "util/fibers/proactor_base.cc:ProactorBase::ShouldPollL2Tasks", "util/fibers/proactor_base.h:IdleRatio"]}
{"id": "C137", "title": "Numbers are shown with the right unit", "statement": "HumanReadableNum shows every 64 bit integer: below 1000 as it is, below 10^15 as a number with two decimals, less than 1000, followed by the largest of the units k, M, B and T that fits, off by less than 0.6 percent, and above in exponent notation; the sign is kept.", "quantifier": "all 64 bit integers, all ways to round a tie", "why_tests_cant": "The errors sit at single values: the smallest integer, and numbers just below the next unit.", "anchors": ["strings/human_readable.cc:HumanReadableNum"]}
{"id": "C138", "title": "A table shows its cells", "statement": "The text that SortedTable appends for a header and rows shows exactly the cells it was given: from the text one can tell the header and, for every row, how many cells it has, their order and what is in each of them, whatever the cells contain.", "quantifier": "all headers, rows and cells", "why_tests_cant": "Only cells with markup in them break the table, and no test can try all contents.", "anchors": ["util/html/sorted_table.cc:SortedTable::StartTable", "util/html/sorted_table.cc:SortedTable::Row", "util/html/sorted_table.cc:SortedTable::EndTable"]}
{"id": "C139", "title": "Durations are shown with the right unit", "statement": "HumanReadableElapsedTime shows every duration with its sign, with three significant digits and a unit from microseconds to years, so that at least one and less than the next unit is shown and the exponent notation is not needed.", "quantifier": "all durations", "why_tests_cant": "The errors sit just below a unit, where rounding to three digits matters.", "anchors": ["strings/human_readable.cc:HumanReadableElapsedTime"]}
{"id": "C140", "title": "Running a function on all fiber stacks goes unnoticed", "statement": "Running a function on the stacks of all fibers of a thread, as for printing stack traces, calls it exactly once for every fiber, on that fiber's own stack, and then the caller goes on. The other fibers do not notice: whatever runs later, in which order and with which result of their own switches is the same as without it, however often it is done, and nothing stays behind on their stacks.", "quantifier": "all histories of starting fibers, switching and running functions on stacks", "why_tests_cant": "It depends on how calls nest on stacks of fibers suspended at arbitrary points.", "anchors": ["util/fibers/detail/fiber_interface.cc:FiberInterface::ExecuteOnFiberStack", "util/fibers/detail/scheduler.cc:Scheduler::ExecuteOnAllFiberStacks", "util/fibers/detail/fiber_interface.cc:FiberInterface::SwitchTo"]}
