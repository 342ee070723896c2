# Formal model of gree/flare: design

The code in /repo is read as text and is not built or run. The only tie between the
theorems and the code is the reading recorded in the comments of the model: every
definition cites the file and lines it models and says where it simplifies.

## Layout

    lean/Verif/Model/*.lean   executable models, one file per part of the code
    lean/Verif/Spec/*.lean    small independent specifications used in statements
    lean/Verif/Lemmas/*.lean  helper lemmas (not claims)
    lean/Verif/Props/*.lean   the property theorems with a concrete instance beside each
    seeded/LOG.jsonl          mutation log (edits made to a scratch copy of the model)
    MANIFEST.json             property -> theorems

## Plan per property

| id  | model | how it is proved |
|-----|-------|------------------|
| C01 | `Model/Storage`: store = records + bounded deletion cache; `set/incr/get/remove/truncate/iter` as total functions of the current time | one-step lemma "STORED => get returns it", then induction over commands on other keys (frame lemma C02) |
| C02 | same | case analysis of each command, for every pair of keys |
| C03 | same | one-step version lemma; invariant over histories of version-less commands with a ghost high-water mark; negation witness after eviction |
| C04 | same | decision table of `set` with cas; induction for the "at most one wins" part |
| C05 | same | each command applied to an expired record |
| C06 | same | exact iff-characterisation of the outcome and frame for refusals |
| C07 | same, 64-bit numbers | equality with saturating arithmetic for all operands; decimal print/parse round trip |
| C08 | same | iff-characterisation of `remove` |
| C09 | same | induction over commands on other keys under "record still cached" |
| C10 | same | decision table |
| C11 | `Model/Replication`: two stores, forwarding map of queue_proxy_write::_get_op | simulation relation preserved by every command (induction) |
| C12 | `Model/Replication` with dump steps | invariant per key over every interleaving |
| C13 | `Model/Storage` | direct |
| C14 | `Model/Storage` with the two-phase get | induction over intermediate commands |
| C15 | `Model/Locks`: traces of lock operations per command and an interleaving semantics of rwlocks | ordered acquisition => no wait cycle (progress); negation witness for storage_tcb::incr |
| C16 | `Model/Storage` iteration calls | induction over calls |
| C17 | `Model/KeyResolver` (hash functions), 32-bit ints | all bit vectors; negation witness at INT_MIN |
| C18, C19 | `Model/KeyResolver` | induction over the partition count |
| C20-C23, C26 | `Model/Cluster`: node map, partition map, all index-server commands | invariants by induction over commands; negation witness for C23 |
| C24 | `Model/Cluster` + node side `reconstruct_node` | induction over deliveries |
| C25 | `Model/Cluster` `_reconstruct_node_partition` | loop invariants |
| C27 | `Model/Cluster` save/load (stored values), `Model/ArchiveIndex` (stored text) | invariant of orderly histories; C98 for the text |
| C29-C32 | `Model/Routing` | decision table of the pre/post proxy functions for every consistent map; induction over paths; negation witnesses for disagreeing maps |
| C34-C36, C50 | `Model/Text`: byte-level scanner, parser and printer | induction over digits and bytes |
| C37 | `Model/Bytes`, `Model/Storage` | arithmetic on byte lists |
| C38, C39 | `Model/Binary` | arithmetic on byte lists; negation witness for the size computation |
| C40 | `Model/Connection` | refinement of the buffered reader to a reader of the flat stream |
| C41 | `Model/Base64` | induction over groups of three bytes |
| C46 | `Model/TimeUtil` | linear arithmetic |
| C43 | `Model/SyncQueue` | transition system, invariant over all schedules, decreasing measure; negation witnesses |
| C33 | `Model/SendOrder` | invariant over all histories (FIFO per key), order of execution under stated conditions; convergence of versioned sets in any order |
| C28 | `Model/FileCoordinator` | every prefix of the system calls of a save, induction over histories of saves and crashes |
| C42, C52, C59–C61 | `Model/Cast`, `Model/Control` | exhaustive case analysis over the enumerations, round trips for all values and node maps by induction |
| C57 | `Model/Bwlimit` | invariant over all sequences of calls (bytes = time passed + debt + rounding), bounds without overflow |
| C58 | `Model/Retry` over `Model/Storage` | induction over the tries and everything in between |
| C62 | `Model/Forward` over `Model/Text`, `Model/Storage`, `Model/Routing` | composition of queueing, printing and parsing, for every request that can be read; same effect on every store |
| C63 | `Model/ProxyLink` over `Model/Retry` | invariant (no line left unread), refinement of C58; conservation of lines for the shift, for every sequence of writes |
| C64 | `Model/Get` over `Model/Text`, `Model/Retry` | induction over the keys; every cut of an answer; invariant of the entry over all tries |
| C65 | `Model/Engines` | the differences of the copies only; equality with `storage_tch` per call, induction over histories |
| C66 | `Model/Keys` | round trip of request and answer; the loop of tries with its list that changes meaning |
| C67 | `Model/CrossCluster` | as C12, with every record sent as a set; invariant: the newest item that has arrived |
| C68 | `Model/ZkLock` | any number of clients, any states of the directory shown; invariant: whoever holds has the smallest number, and no smaller one comes back |
| C69 | `Model/MultiIndex` | simulation by one index server (`Model/Cluster`) as long as no change falls between load and watch; witnesses for the gap |
| C70 | `Model/Failover` | any number of nodes, copies in flight, answers, changes of role: invariant over the history of the one master (every item is at a slave or on its way), then versions only grow; witnesses for the ways to lose an answered write |
| C71 | `Model/Session` | the loop of a connection over the stream of bytes: every encoded request is read back with the rest of the stream left, every answer is read back by the client; induction over the requests, for any state and behaviour of the rest |
| C72 | `Model/BinSession` | the same loop over binary requests; the answers are shown to be the bytes of messages of the protocol description, which the client's reader takes apart again; induction over the requests, for an arbitrary rest of the node; cut off streams as a suffix case |
| C73 | `Model/Config`, `Model/IndexOptions` | start and reload as functions on the options that are given and on what the running parts act on; reload is compared with start, histories by induction; the signal as a small state machine with an invariant |
| C74 | `Model/MySql` | statements, events and packets as bytes; a reader of packets, events and statements written after the MySQL manual gives back what was sent (round trip); the table follows the store by induction over histories, with the lemmas of C11; the queue as a state machine with an invariant |
| C75 | `Model/Worker` | one thread of the pool with everything others do to it, every access a step; invariant by position of the thread, measure for the start; defects as histories with general continuations |
| C76 | `Model/Wire` | the writing side of a connection against a list of answers of the kernel; induction over the calls; composed with C40 for both ends |
| C77 | `Model/Slow` | sessions over a list of segments with time-outs between them; the loop is cut at the break by induction over the turns |
| C78 | `Model/IndexSession` | Model of the operations of flarei, of their parameters as `next_word`/`next_digit` read them and of the loop of a session; the meaning of a line is stated over its words (`Spec/IndexSession`) and shown to be what is taken, for any blanks and buffers. The cluster of `Model/Cluster` is put behind the session: whatever the bytes, its state is the history of the commands done (C20 then applies). |
| C79 | `Model/Shared`, `Spec/Memory` | first sections of all calls and late removals of all threads in any order; simulation of an abstract memory whose slots may fade; invariant on versions for orderly nodes; C71 for the bytes; negations proved from what no memory can explain |
| C80 | `Model/Fleet`, `Spec/Fleet` | many nodes with the storage of C79; requests handed on through the encoders and parsers (C35, C59, C71); every ended request is a step of the memory at the home of its key, copies never reach a home; C71 for the bytes the clients read; negations proved from what no memory can explain |
| C81 | `Model/BinSession`, `Model/Shared` | the session of the binary protocol is run on the outcomes of the sections of C79; induction over the requests, one lemma per request on what the memory is asked and what its answer becomes on the wire; versions of append, prepend, delete and add by cases of the checks of the storage |
| C82 | `Model/Accept` | main loop of both processes as a transition system with the sockets, the pool and the list of accepted connections; invariants by induction over the run |
| C83 | `Model/QueueLimit` | queues with the phases of `enqueue` and `dequeue` as steps; the counter is the sum over the queues corrected by the calls under way; sum lemmas for changing one queue |
| C84 | `Model/Stats` | counters as functions of request and outcome (Model/Session, Model/BinSession); compared with what a client counts from the answers it reads (C71, C72) |
| C85 | `Model/DumpKey` | fields printed and scanned back (lemmas of the text protocol); induction over the rounds of the iteration; the reader is shown equal to that of `keys` (C66) |
| C86 | `Model/Grow` | the run of all masters projected to each (the store of a master is that of `masterRun` over its own events); general form of C12 with older records from elsewhere; C19 for the keys that stay |
| C87 | `Model/ZkCode` | an invariant over all runs of the calls of both threads of every object: the history of the directory, what each session has seen, and a ticket for whoever is inside; a second invariant for what is left behind; general theorems for the loops that never end, runs for the races |
| C88 | `Model/Join` | the session of the index server for the two requests (C78) composed with the reading of node lines and meta lines (C60, C61) and with the tables of any consistent map (C25); a part of an answer is read like the whole as far as it goes |
| C89 | `Model/Watch` | a relation between the map with its ids and the accesses that are going on, kept by every step; ids are free by a pigeonhole argument; composed with the counting of failures (C45) |
| C90 | `Model/Ward` | the watchers (C45), the controller's queue and the map (C20-C25) composed: a step lemma for a time in which a node's condition does not change, then induction over what waits in the queue; for the converse an invariant that bounds the counter by the failures since the last success |
| C91 | `Model/Halt` | every step of the main thread, the threads for clients and the senders, in any order; invariants over all runs (accounting, who has ended when), a measure for the end |
| C92 | `Model/Report` | the lines and packets of the answer against a reader of lines and of packets; requests for the threads of a type as steps under the read lock |
| C93 | `Model/Failover`, `Spec/Tombs` | the invariant of C70 with values and deletions in one order (a deletion comes right after the value with its version); deletions that are not overtaken and not forgotten as conditions; the order of copies gives the first of them; over several masters (`Spec/TombReigns`) with the invariant of C70's succession in the same order |
| C94 | `Model/Follow` | invariant of one server against a store that others change: after the flush the session sees the newest map; while calm, memory = view whenever the watch is set; catch-up by induction on the distance |
| C95 | `Model/IndexStart` | the start as a function of options and read answers; equality for permuted directories, resolver totality from C18 |
| C96 | `Model/Listen` | invariant: open descriptors, ports and files are those of the sockets kept, plus what was there; `close` erases them one by one |
| C97 | `Model/Errand` | reads and writes over one connection, as bytes, against the storage of the other node: induction over the tries and the requests with "nothing is left on the connection" (`C97_own_partial`), a request whose answer is in time is not sent again (`C97_answered`), a new connection serves again (`C97_fresh`); for late answers general theorems of what is told instead |
| C98 | `Model/Archive`, `Model/ArchiveIndex` | readers that take exactly what was written and refuse every beginning of it, closed under sequence and nesting; cases by where the text ends |
| C99 | `Model/Iterate` | the records behind the cursor as the invariant; exact result of an iteration that removes what it finds expired, by induction on the calls |
| C100 | `Model/Socket` | the loop of `read` with the answers of the kernel as a list; what is in the buffers plus what is left of the stream as the invariant; turns used against bytes taken for progress |
| C101 | `Model/Senders` | client threads and senders take turns; what has been started plus what callers still want to start against callers that have begun; ids without duplicates; with one caller at a time all senders run but the one being started |
| C102 | `Model/Realm` | the index server (Model/Cluster), the maps of the nodes (Model/NodeView), who executes a write (Model/Routing) and the copies (Model/Failover) in one model; invariant: all maps sent since a base version have one live master of the partition, which is the named one or has stopped; a run is cut into times with one master each, to which C93 applies |
| C103 | `Model/Text` (`entryParse`) | the scanners on a given line, field by field |
| C104 | `Model/Client`, `Spec/Client`, `Props/Client` | on the byte streams of Model/Errand; one call from C97_answered, sequences by induction with nothing left on the connection; negations for disconnect, reused entries, late answers |
| C105 | `Model/Show`, `Spec/Show`, `Props/Show` | the bytes of the answer read back line by line; injectivity over all options; with the histories of files of Model/Config and the start of Model/IndexStart |
| C106 | `Model/Uri` | the patterns as functions that cut at the first colon, slash, question mark and comma; an exact condition for the state to be in the data directory, injectivity for absolute paths, round trip of a list of servers; general theorems for what does not match |
| C107 | `Model/Vigil` (with `Model/Monitor`, `Model/IndexOptions`) | the rounds of the watcher with a clock; the moment of the request as an exact sum over any sequence of rounds, by induction; bounds and the blocked case follow from the sum |
| C108 | `Model/PidFile` | invariant of the file and the servers over histories of whole starts; interleavings of starts as witnesses for all process ids; an invariant of all events for a file without a number |
| C109 | `Model/FdLimit` | the limits of the process under the rules of the kernel, at the start and through all histories of reloads |
| C110 | `Model/Logger`, `Spec/Log` | the bytes on the standard error output read back line by line; the facility through all histories of reloads |
| C45 | `Model/Monitor` | invariant over all histories of rounds (never early), exact period of requests, equivalence for up |
| C44 | `Model/ThreadPool` | invariant over all histories, pigeonhole; wrap-around by induction over 2^32 rounds |
| C47-C49 | `Model/Dump` | induction over the iteration; negation witnesses |
| C51 | `Model/KeyResolver` | counting argument over the slots |
| C53, C54 | `Model/NodeView` | invariants over the sequence of maps a node receives |
| C55, C56 | `Model/Text` | exact characterisation of the accepted lines |

## Trusted base

* Lean's kernel (4.33.0) and the standard axioms propext, Classical.choice, Quot.sound; the axioms of
  every theorem are listed at the end of this file. No axiom of our own, no `sorry`, no
  `native_decide`, no `bv_decide`; `decide +kernel` (evaluation by the kernel) for concrete witnesses.
* The reading of the C++ text recorded in the comments of `Model/*`. Nothing checks it mechanically:
  the code is not compiled or run. The lines each definition stands for are listed at the end.
* What is taken for granted about the environment of the code:
  * Tokyo Cabinet and Kyoto Cabinet: a finite map with put, get, out and vanish, each of which may
    fail (`Env`), and an iterator whose order and treatment of concurrent changes is an input.
    Only `Model/Iterate` (C99) says more: a hash database keeps records at places in a file, a B+ tree in leaves, and
    their cursors are a place or an index in a leaf, as in Tokyo Cabinet 1.4 and Kyoto Cabinet 1.2.
  * `pthread_rwlock`: any number of readers or one writer; both policies for waiting writers.
    Mutexes and conditions: as in POSIX, without spurious wake-ups where a theorem says so.
  * Sockets: a stream of bytes cut into pieces of any size, which may end at any byte.
  * The clock: any sequence of numbers unless a theorem asks for more.
  * The file system: system calls take effect in order; a crash keeps a prefix of them.
  * boost's XML archives have the form, and are read in the way, that `Model/Archive` says (elsewhere: an archive
    is read back as the same value, or fails - which `C98_round_trip` shows for that form).
  * `int` has 32, `long` and `size_t` 64 bits; two's complement conversions; little-endian host.
  * The C++ allocator does not fail.
* Where C++ leaves the behaviour undefined (signed overflow, reads and writes outside a buffer,
  null pointers) the model has an outcome of its own (`Rc.ub`, `Fault.ub`, `GetEnd.ub`, `none`), so that
  a theorem cannot use it by accident.
* Modelled in part: the ZooKeeper coordinator and its lock (Model/ZkLock, with the library's answers
  as given; Model/ZkCode, the calls of the lock one by one, with lost answers and expiring sessions), MySQL replication (Model/MySql, the packets and the statements), the options of a node at
  start and reload (Model/Config, from what the option library has read).
* Not modelled: the ZooKeeper and MySQL servers and client libraries, the option library, logging,
  statistics (`stats`), the alarm threads, signals and start-up of the programs except where cited, `show`,
  and flarefs (the FUSE file system), an unfinished prototype: `fuse_fs_entry_dir.cc:62` calls a function
  that is declared nowhere in /repo.
* The parts of the model are joined where a theorem says so (for instance C11 goes through the bytes
  of the text protocol, C62 through parsing, queueing, printing and parsing again); where they are not
  joined, the join itself is a simplification stated at the top of the model file.

## What the text model assumes of library functions

* `boost::lexical_cast` to an unsigned type accepts an optional sign and decimal digits, a
  minus sign gives the negative modulo 2^n, and everything else throws; to `time_t` it accepts
  the decimal numbers of the range. Leading zeros are accepted. No locale grouping.
* `snprintf` prints decimal numbers without leading zeros and copies `%s` up to the first NUL.
* `atoi`-like conversions are not used by the modelled functions.
* `BUFSIZ` is 8192 (glibc).

## Defects found

Each has a theorem with a concrete witness or an exact characterisation.

| theorem | defect |
|---------|--------|
| C03_forgotten_restarts | versions restart when the deletion record was evicted |
| C10_stale_set_after_delete_resurrects | a replicated plain set is not checked against the deletion cache |
| C14_same_version_destroyed | delayed removal destroys a newer record of the same version |
| C17_negative | the hash of an ordinary key can be -2^31, abs overflows |
| C18_undefined | partition table read outside its bounds (configuration, negative index) |
| C20_split_brain | two active masters of one partition |
| C21_orphan_slave | slave without master |
| C22_failed_save_promotes_proxy | failed save leaves the map changed, next failover promotes a proxy |
| C23_partition_lost | a partition can be lost |
| C24_version_read_race, C24_startup_version_zero | node map and its version are read at different times; first map has version 0 |
| C25_down_negative | negative balance accepted with down nodes |
| C26_failed_save_stays | failed save leaves the change in memory |
| C35_key_injection | keys of the binary protocol are put into text lines unquoted |
| C36_next_digit, C36_request_overflow | next_digit writes one byte behind its buffer |
| C55_size_overflow | announced size + 2 overflows int, memcpy from NULL |
| C56_negative_amount | incr with a negative amount adds 2^64-n |
| C40_lost_byte, C40_value_becomes_request | push_back of a byte that arrived alone restores a stale buffer: first byte of the request lost, a value can be executed as a request |
| C40_double_cr | a line ending in \r\r\n is read differently depending on packet boundaries |
| C39_reads_outside | extras and key longer than the announced body: the key is copied from beyond the body |
| C39_body_becomes_request | a body of 2 GiB or more is not consumed, its bytes are the next request |
| C38_get_answer | responses never carry the opaque value or the version |
| C29_stale_map_loses_write | a forwarded write that reaches a former master, now slave, is executed there only: lost, although the client is told STORED |
| C31_loop | two nodes outside the partition that disagree about its master forward writes and reads to each other for ever |
| C11_late_touch | a touch forwarded to a slave carries no version or value: if it arrives after the old expiry the slave loses a key the master keeps |
| C11_clock_skew | a write with an explicit version is refused by a slave whose clock is behind and still sees the expired record |
| C11_flush_not_replicated | flush_all empties one node only |
| C12_touch_overtakes_dump | during a reconstruction a touch that arrives before the dumped record is lost, and the replica keeps the old expiry |
| C12_leftover | a reconstruction removes nothing: keys the replica still had and the master has deleted stay |
| C12_forgotten_deletion | a dumped record that arrives after the replica's bounded deletion cache has forgotten the deletion brings the key back |
| C47_nul_key | the iteration returns keys as C strings: a key with a NUL byte is missing from every dump, its prefix is dumped twice |
| C48_shutdown_activates | a copy interrupted by a shutdown request counts as complete: the node is reported active with the records received so far |
| C48_refused_record | a record the storage refuses while copying is dropped, the copy still counts as complete |
| C48_early_ready | a new master is reported ready when the first copy ends before the next one has been counted |
| C48_stuck | a failed copy is never counted back: a node tried again is never reported ready |
| C49_wrong_value | the initial copy to another cluster sends a key deleted meanwhile with the value of the key before |
| C49_overread | the initial copy to another cluster sends an expired record with a foreign value and reads beyond its end |
| C43_early_return | synchronous replication to two slaves can return before the second one has been sent the write: `sync` waits once, and a late signal of the first sender wakes it |
| C43_preparing_not_awaited | synchronous replication does not wait for a preparing master |
| C43_shutdown_hangs | a sender that is shut down just after dequeueing a request leaves the client's thread waiting for ever |
| C43_exit_unserved | a sender that exits wakes waiting threads although their requests have not been sent |
| C44_pools_collide | the two thread pools share a counter but not the check for duplicates: after 2^32 connections a connection gets the id of a sender thread, and `kill` hits the wrong one |
| C33_overtaken | the storage releases its locks before the copy of a write is enqueued: two threads writing one key can enqueue in the other order, and a replica that executes a delete before the set it follows keeps the deleted key |
| C33_new_sender | when senders are started (or exit) while copies wait, later copies of a key go to another queue and may be sent first |
| C52_colon | the name of a node whose address has a colon (IPv6) is not recovered from its node key: copies are sent to another host and port 0 |
| C59_newline | a newline in an answer's message is not escaped: the peer takes the rest for the next answer |
| C60_unknown_role | role and state numbers of node lines are not checked: any number is cast to the enumeration |
| C61_too_large | a number in `meta` that does not fit is ignored without error: the node resolves keys with its default |
| C61_type_missing | without a `partition-type` line the node decides on an uninitialised variable |
| C45_threshold_zero | with a monitor threshold of 0 (accepted by the configuration) no failure takes a node down, and every successful check asks for it to be brought up |
| C45_late_signal | `enqueue` signals after releasing the lock; if the monitor thread has taken the entry before and waits again, it wakes without an entry and dereferences an empty pointer: the index server crashes |
| C28_lost | a crash of the index server between `unlink` and `rename` loses old and new state: the next start takes the missing file for an empty cluster |
| C28_rename_fails | if `rename` fails, the old state has already been deleted |
| C28_disk_full | write errors are not looked at: with a full disk the state is cut off and the save reports success |
| C15_tcb_waits_for_itself | `storage_tcb::incr` of an expired key calls `remove` before it has released its own locks, and with an entry whose key is not set: if the key shares its slot with the empty key the thread waits for itself for ever (or, where the lock call reports the deadlock, unlocks twice); the expired key is never removed |
| C15_tcb_blocks_iteration | the same call takes the store-wide lock a second time: with rwlocks that prefer writers it and `iter_next` (or `truncate`) block each other |
| C15_slot_negative | with a number of slots that does not divide 2^31 the hash value -2^31 gives a negative slot index |
| C57_clock_set_back | the bandwidth limiter uses the wall clock: if it is set back by d, the next write of a dump sleeps for at least d |
| C57_sleep_truncated | a sleep of more than 2^32 microseconds is cut by usleep's argument |
| C58_incr_four_times | a write whose answer gets lost is sent again, up to four times in all: one incr can count four times |
| C58_append_twice | the same for append: the value is appended again |
| C58_add_wrong_answer, C58_cas_wrong_answer, C58_delete_wrong_answer | the repetition of a successful add, cas or delete is refused, and the client is told so although its write took place |
| C62_cas_forwarded | a binary set with a version is conditional where it is received, but handed to the master it is a plain set with a version: it fails if the version matches and overwrites if the version is too high |
| C62_amount_lost | in mode forward of the cluster replication the amount of incr and decr is not handed on: the other cluster adds 0 |
| C62_copy_stays_at_slave | copies for another cluster carry the path of the request: if it is not empty and the receiving node is a slave of the partition, the copy is executed there only |
| C63_noreply_error, C63_shift | errors are sent even for writes marked noreply, but the sender does not read them: after one such error every later write on the connection gets the answer to the write before it, for as long as the connection lives |
| C63_late | when the time to wait for an answer has passed the connection is not closed: the late answer is taken for the answer to the next try, and every later write gets the answer to the write before it |
| C64_mixed, C64_mixed_answer | a forwarded read whose connection breaks after the value and again after the next value's first line answers with the data of the old and flags, size and version of the new value; a cas with that version overwrites a value nobody has seen |
| C64_overread | if the new value is longer than the old one, the answer is read from beyond the end of the buffer (other memory is sent to the client) |
| C64_failure_is_miss | a forwarded read that fails is answered as if the key had no value |
| C64_late_end | an END that comes late for an earlier read is taken for the answer: an existing key is reported as missing, and the own answer is left for the next read |
| C64_version_lost | binary reads are handed on as text `get`, so that the version is always 0 where the own storage would give it |
| C65_tcb_wrong_key | `storage_tcb::incr` of an expired record removes the record of the empty key (if the versions agree) instead of the expired one |
| C65_kch_sync | `storage_kch` reports an error for a write it has stored if `synchronize()` fails afterwards |
| C65_kch_keys | keys with a NUL are handed out whole by `storage_kch` and cut by the others (dump, reconstruction) |
| C66_lost | a forwarded `keys` whose connection breaks before the first line is never asked again and is answered with no keys |
| C66_wrong_prefixes, C66_truncated | if it breaks after some keys, the next try asks for these keys as prefixes; the client gets a shortened list without an error |
| C66_phantom | if no request can be sent, the prefix itself is answered as a key |
| C66_unable_lost | a node without prefix search answers SERVER_ERROR, which the forwarding node turns into no keys |
| C66_expired | `keys` lists expired keys |
| C66_partition | only the partition of the prefix's own hash value is searched |
| C67_resurrected, C67_comes_back | a record of the dump to another cluster is sent as a plain set, which a remembered deletion does not stop; a record overtaken by the copy of its deletion brings the key back |
| C67_old_value | in the same way an old value comes back after the newer one has expired |
| C67_no_thread | copies for another cluster are dropped without an error when no thread is left to send them |
| C64_error_shifts | an ERROR line does not close the connection for reads; what follows is taken for the answer to the next try |
| C68_expired_holder | a holder of the lock whose session has expired goes on and stores over the operation of the next holder; the write is not bound to a version |
| C68_late_write | a write given up because the answer was lost may be carried out after the lock was handed on, over the next operation |
| C68_no_watch | if the node to watch has gone, `continue` leaves the loop, and no watch is set; only the time-out of one second helps |
| C68_numbers_wrap | beyond 2^31 lock nodes the sign of the number is lost and a second client gets the lock |
| C69_gap_no_failover, C69_gap_partition_lost | a change between the load of the map and the setting of the watch is never noticed; the next failover is computed from old tables: nobody is promoted, or a master of another partition is |
| C69_gap_at_start | the same gap when an index server starts: it does not hear of a slave added meanwhile and promotes nobody when the master fails |
| C69_restore_torn | a state longer than 8192 bytes that grows between the two reads is returned cut off |
| C65_large | only `storage_kch` stores values of two gigabytes; the others pass a negative length |
| C66_left_over | a line `KEY` without a key ends the try but keeps the connection; the next try takes the rest for its answer |
| C70_not_copied, C70_gave_up | a slave whose queue refuses the copy, or whose sender gives up, is passed over; the client is told STORED all the same, even if it asked to wait for the copies |
| C70_async | the same without waiting: the answer comes before any copy is sent |
| C70_equal_versions | after a failover the new master may give a write the version that another slave already has from the lost master; this slave ignores the copy, the client is told STORED, the next failover loses the value |
| C70_two_masters | a master that has not heard of its replacement still answers STORED; the new master ignores its copies |
| C70_deleted | the copy of a deletion overtakes that of the value: the deleted value is what the next master has |
| C71_noreply_answered, C71_out_of_step | a write with `noreply` that cannot be handed on, or that the storage fails to do, is answered with SERVER_ERROR; the client takes it for the answer to its next request and stays one answer behind |
| C71_key_with_blank, C71_value_as_requests | the value behind a refused line of a store is not skipped but carried out as requests: whoever chooses the value chooses the requests, for example flush_all |
| C71_end_not_checked | the two bytes behind a value are dropped unseen; what a value is too long is carried out as requests |
| C71_gat_no_end | the value of a text gat is not followed by END |
| C71_gat_noreply | a forwarded gat with `noreply` waits for an answer that is never sent, and takes that of the next request |
| C72_tag_lost | no binary answer carries the tag (opaque) of its request or the version of the value: both fields are always zero |
| C72_never_quiet | the quiet operation codes are not quiet: they are answered as the plain ones, misses and successes included |
| C72_number_as_text | a forwarded binary incr or decr that succeeds is answered with a line of the text protocol in the middle of the binary stream |
| C72_unknown_as_noop | an unknown operation code is answered under the code of noop, so that a client waiting for its noop takes that answer |
| C73_refused_limit, C73_refused_later | options are stored one by one and the file is refused in the middle: "skip reloading" is reported, but the limit of connections is already changed, and the other options read so far come into effect with the next file that is accepted (flared/ini_option.cc:447-581, flared/flared.cc:361-365) |
| C73_command_line_lost | a reload reads the file alone: options of the command line are overridden, e.g. synchronous replication becomes asynchronous by reading an unchanged file again (flared/ini_option.cc:431) |
| C73_index_on_command_line | a node whose index server is named on the command line refuses every file (flared/ini_option.cc:511, 705-708) |
| C73_removed_stays | an option that is taken out of the file keeps its old value (flared/ini_option.cc:448-574) |
| C73_no_range | no ranges are checked: a large read timeout overflows an int, a negative limit of connections becomes a huge one (flared/flared.cc:177, 373; flared/ini_option.cc:204, 455) |
| C73_cluster_replication_off | the result of starting cluster replication is ignored in a reload: success is reported and nothing is replicated (flared/flared.cc:427) |
| C73_index_left_out, C73_index_misread | the list of index servers is searched for entries: text in between is skipped, `a:b:1` is read as `b:1`, `host:1x2:3` as two servers (flared/ini_option.cc:666-685) |
| C73_signal_lost | the flag of the signal is cleared after the reload: a signal that comes while the file is applied is lost (flared/flared.cc:320-332) |
| C74_injection, C74_delete_all | values are escaped for the MySQL slave, keys are not: a client's key can hold further rows, and the delete of the key `'or'1'='1` deletes every row (mysql_replication.cc:175-180) |
| C74_quote_stops, C74_backslash, C74_nul | a quote in a key stops the MySQL slave with an error, a backslash or a NUL makes it another key (mysql_replication.cc:175-180) |
| C74_full_packet, C74_full_packet_exists | an event whose length is a multiple of 2^24-1 is not followed by an empty packet: the MySQL slave reads it and the next event as one and stops (mysql_replication.cc:529-556) |
| C74_signed_length | lengths of packets are computed from signed bytes: a packet of the MySQL slave of 128 bytes or more (with a length byte of 128 or more) ends the connection (mysql_replication.cc:566) |
| C74_silent | commands such as COM_REGISTER_SLAVE and COM_PING and unknown queries are never answered; the MySQL slave waits for ever (mysql_replication.cc:88-150) |
| C74_beginning, C74_beyond | queries are compared over their own length, so that the empty query is answered with the time; `SET` is compared beyond the end of the packet; a packet of length 0 is dereferenced (mysql_replication.cc:86, 97-139) |
| C74_off | writes made while no MySQL slave is connected are never sent, the position it asks for is ignored; clients whose entries are in the queue when the connection ends wait until another slave connects (handler_mysql_replication.cc:92-146, cluster.cc:1475) |
| C74_sent | the entry whose send fails is lost, and its client is told that it was replicated (handler_mysql_replication.cc:133-136) |
| C74_overtaken | statements do not compare versions: copies that overtake each other leave the older value in the table for good (mysql_replication.cc:180) |
| C74_flush_stays | `flush_all` is not copied: the MySQL slave keeps every row |
| C75_dead_on_stack | a `kill` (or a stop of the cluster replication) that races with the return of the handler sets request or trigger of a thread that is already on the stack of the pool: it wakes, does not find itself in the map, and ends while it stays on the stack; the next connection or proxy thread given to it is never served, and `trigger` with `async = false` waits for ever; a wait that ends without a signal does the same, as `wait` has no loop (thread.cc:57-80, 198-211, 280-303, 331-336; thread_pool.cc:156-161) |
| C75_wrong_handler | `enqueue` looks at `_running` without the lock of the queue: an entry pushed after `clean` stays in the queue of the thread on the stack and is processed by the next handler, at another node or cluster (thread.cc:434-458) |
| C75_given_twice | a thread killed between `get` and `trigger` returns to the stack while its caller still holds it; the next caller shares it and its handler is deleted without having run (thread.cc:57-77, 221, 267-271) |
| C75_start_missed | `trigger` with `async = false` waits for a signal that was sent before, when the handler has already returned (thread.cc:232-238) |
| C75_stop_not_awaited | `_shutdown` is never reset: a thread that was shut down once and reused is not waited for by later shutdowns (thread.cc:348-351, 374-383) |
| C76_too_much | `op_get` keeps back the answers to all keys: as soon as they come to 2147475456 bytes (a value of 1 MB asked for 2048 times in one line) the length of the buffer overflows an `int` (connection_tcp.cc:718-734, op_get.cc:335) |
| C76_waits_for_ever | `write_timeout` does not end a write: a client that does not read its answers keeps a thread for ever (connection_tcp.cc:500-503) |
| C76_zero_loses, C76_zero_skips, C76_eighth_call | `writeline` counts bytes that were kept back before as bytes of the line, and takes the eighth call for a failure (connection_tcp.cc:560-580) |
| C77_late_value, C77_value_carried_out, C77_late_body | a client that is silent for longer than `net-read-timeout` within a value is told ERROR, but the session goes on: the rest of the value is carried out as requests (connection_tcp.cc:241-249, 433-436, op.cc:66-70, handler_request.cc:63-72) |
| C78_typo_taken, C78_more_taken | `node role` does not look at what is behind its numbers: a mistyped balance (`1O0`) is cut at the mistake, the partition is dropped, words behind are ignored, and the operator reads OK (op_node_role.cc:122-145) |
| C78_glued_taken | a port may run into the state (`node state h 1down`): `next_digit` stops within the word and `next_word` takes the rest of it for the state, so a line without a state is carried out (op_node_state.cc:95-125) |
| C53_removed_nodes_promoted | after a lost partition the tables are not rebuilt and go on listing removed slaves; taking the master of another partition down looks them up with `_node_map[it->node_key]`, which makes them anew with all members zero: two active masters of partition 0 with thread type 0, the old masters lose their data, no command is refused (cluster.cc:541-566) |
| C79_flush_undone | `get` and `incr` remove a record found expired in a second locked section and recognise it by its version; versions start again at 1 after `flush_all`, so a value stored after it is removed (storage_tch.cc:429-432, 498-501, 513-579) |
| C79_eviction_undone, C79_hold_lost | the same late removal destroys a new value when the deletion cache has forgotten the version, and takes away the hold of a deletion of the expired record (storage_tch.cc:498-501, 537-544) |
| C80_flush_one_node | `flush_all` empties only the node where it arrives, not the other masters and not its own slaves, and is answered `OK` (op_flush_all.cc:133-147) |
| C80_stale_read | a slave with a balance answers reads before the copies of acknowledged writes have arrived (cluster.cc:1305-1348, 1422-1495) |
| C81_append_version | a version given with a binary append or prepend is not compared for equality: the right version is refused, a larger wrong one is accepted and becomes the version (storage_tch.cc:204-222) |
| C81_delete_version, C81_version_planted | a binary delete with a version larger than the current one deletes, with a smaller one says that the key is not there; for an absent key it leaves the version behind for the next value, so that the largest version makes the next one 0 (storage_tch.cc:529-544) |
| C81_add_version | a binary add with a version never stores anything (storage_tch.cc:176-203) |
| C81_no_initial | the initial value of a binary incr or decr is not used, the counter is not made (op_incr.cc:135-146) |
| C74_query_cut | a NUL byte in a query of the MySQL slave ends its comparison: what follows is not looked at (mysql_replication.cc:88-150) |
| C82_index_leaves_some | a connection to the index server whose thread cannot be created is neither served nor closed (flarei.cc:326-328; flared.cc:413-418 checks) |
| C82_late_place | a client is turned away although nobody else is connected: a thread counts until it has been given back (thread_pool.cc: get, clean) |
| C82_descriptors_wrap | `max_connection * 2 + 16` is computed in 32 bits: for very large (or negative) limits fewer descriptors are asked for than connections are allowed (flared.cc:487) |
| C83_over_limit | the limit of waiting entries is overshot by calls for different queues, which look at the common counter under locks of their own (thread.cc:440-449) |
| C84_passed_on | stores and touches that are passed on count as `cmd_set` at both nodes, other requests that are passed on are counted nowhere but at the node that carries them out; hits and misses of `gat` are counted nowhere (op_set.cc:113-175, op_delete.cc:124-134, op_incr.cc:182-197) |
| C84_key_twice | a `get` naming a key twice sends its value and counts two misses, if the key is deleted between the two reads (op_get.cc:126-178) |
| C85_overflow | `dump 0 2147483647 1` and `dump_key 2147483647 1`, from any client, add 1 to the largest `int` in the check: undefined (op_dump.cc:141-146, op_dump_key.cc:120-127) |
| C85_outside | the number of partitions in `dump` and `dump_key` is not compared with the size of the resolver table: from any client, with a larger number, the first key is looked up outside of the table (op_dump.cc:141-152, key_resolver_modular.h) |
| C85_key_ends_list | a key containing CR LF END, stored by the binary protocol, ends the list of `dump_key` for its receiver, who takes it for complete (op_dump_key.cc:167, 200-215) |
| C85_expired_listed | `dump_key` lists keys whose records have expired, the header not being looked at (op_dump_key.cc:152-170) |
| C86_deleted_returns | keys that move to a new partition stay at the old master, and the next new master dumps its partition from all masters: a key deleted since comes back with its old value (cluster.cc:1544-1580, op_dump.cc:182-192) |
| C86_map_late | the new master starts its dumps when the node map reaches it, not when it has reached all: a write at a master that has dumped the key and does not know of the new partition yet never reaches the new master (cluster.cc:1486-1492, 1544-1580) |
| C87_two_inside | `wait_for_ownership` calls `_lock_internal` without `_mutex_lock`, so the library thread may remove the node that the waiting thread has just been shown as the first; its operation goes on without a node, and another one starts (zookeeper_lock.cc:186-196, 93-138, 471-474) |
| C87_node_left | The answer to `zoo_create` is lost and the next listing does not show the node: a second one is made under the same prefix, and only one of them is removed at the end; the object goes back to the pool with its session, and nobody gets the lock any more (zookeeper_lock.cc:398-419, 523-557) |
| C87_unlock_for_ever | The session expires while the operation ends: `unlock` repeats the removal without limit, since every error is taken for a lost connection (zookeeper_lock.cc:153-157, 523-557) |
| C87_wait_for_ever | The session expires while a thread waits: `wait_for_ownership` ignores the errors of its attempts and waits for ever (zookeeper_lock.cc:178-203) |
| C87_owner_refused | An attempt after a time-out fails, then the lock is had: `wait_for_ownership` returns the error of that attempt, and the operation is refused (zookeeper_lock.cc:170-206) |
| C87_parent_race | Two servers find that the directory of the lock does not exist: the one that creates it second is told that it exists, and gives up (zookeeper_lock.cc:503-518) |
| C87_buffer_read | When `zoo_create` fails, the buffer for the name of the node is read all the same, and nothing has been written to it (zookeeper_lock.cc:405-414) |
| C80_number | the number that a master answers to a handed-on incr is copied into `char buf[BUFSIZ]` whatever its length is; an answer of 8190 or more digits is not a line any more or leaves the buffer (queue_proxy_write.cc:111-118); masters of flare answer at most 20 digits |
| C88_older | The answer to `node add` has no map version, so a node that has joined has version 0 and takes any older map that is still on its way, even one in which it does not occur (op_node_add.cc:119-138, cluster.cc:322, 1106-1112) |
| C88_again_partial | A node that was added and lost the connection before the whole answer arrived gives up; started again, it is refused until the index server has noticed that it is down (cluster.cc:431-438, 274-283) |
| C88_near_undefined | `proxy-prior-netmask` above 32 is not refused and makes a shift by more than the width (cluster.cc:262-263, flared/ini_option.cc:344-346) |
| C88_near_unknown | Nodes whose names have no address are near to a node whose name has none: `INADDR_NONE` is compared like an address (util.cc:153-164, cluster.cc:1887, 1931-1933) |
| C89_default_breaks | Both thresholds of the time watcher are 0 unless they are set, and 0 does not mean off: with `time-watcher-enabled` alone, any access that is going on at a look makes the node answer ping with an error until it is restarted (flared/ini_option.cc:83-84, time_watcher_observer.cc:42-55) |
| C89_warn_hides | An access is only looked at when it is late for the warning: a threshold for errors below that has no effect (time_watcher_observer.cc:42-45, 67-72) |
| C89_for_good | Nothing sets the status back: one write error or slow access takes the node out until it is restarted, also when the storage has recovered (flared/status_node.cc:51-54, flared/flared.cc:459-466) |
| C90_first_failed | When the very first map cannot be stored, the added node stays in memory without a thread that watches it, and is stored with the next node: it is never checked and never taken down (cluster.cc:404-489, 1774-1852) |
| C90_stale_up | A request to bring a node up can wait twice; the second makes a slave that has just been given its role active before it has copied the data (handler_monitor.cc:98-115, cluster.cc:684-769) |
| C90_raised | The counter of a node that is down stays at the old threshold when the threshold is raised: after the node is brought up by hand, fewer failures than the threshold take it down (handler_monitor.cc:98-108, 165-175) |
| C90_late_down | A request to take a node down is carried out although the node has answered since, and the watcher does not ask to bring it up before its next check (handler_monitor.cc:98-115, 191-212) |
| C70_slave_behind | a slave that missed the last copy of a lost master stays behind the new one for as long as the key is not written; a slave that stays a slave copies nothing (cluster.cc:1528-1582) |
| C91_never_sent, C91_async_lost, C91_answers_when_down | An orderly stop throws away the copies that still wait: the senders look at the request to stop before and after taking an entry, and the rest goes with the thread object; the node reports itself as down before it stops serving clients (handler_proxy.cc:80-97, thread.cc:119-128, flared.cc:310-315, 444-445) |
| C91_late_sender_lost | After 60 seconds the stop goes on to the senders although a client still waits for its copy; the dropped entry wakes its thread, which answers STORED (thread.cc:119-128, 359) |
| C91_storage_in_use | A thread that was killed once by command keeps `_shutdown = true`, so the stop does not wait for it and the storage is closed under its request (thread.cc:74-75, 345-348, flared.cc:449) |
| C91_sender_sleeps_on, C91_leaving_blocks | The broadcast to a sender is sent without its lock and is missed between the look at the flag and the wait; a thread whose client leaves needs the lock the stop holds: both cost 60 seconds (thread.cc:342, handler_proxy.cc:80-87, thread_pool.cc:156, 188) |
| C91_signal_missed | SIGTERM between the look at the flag and epoll_wait (without limit) has no effect until the next client connects (flared.cc:310, server.cc:262) |
| C70_leftover_wins | what a node holds is not removed when it is prepared again; a value of the lost master that nobody else has heard of stays if the new master's value has the same version, and is what clients get when the node is the master again: an acknowledged write is lost (cluster.cc:1541) |
| C70_dump_too_early | a new slave begins its dump when it gets the map itself; a write the master executes after the dump has passed the key and before it has got the map is missing at the slave for good, though the client was answered and the slave is active (cluster.cc:1575-1600) |
| C92_readers_race | `thread_pool::get_thread_info(type)` and `get_thread_size(type)` use `operator[]` under a read lock, so that a type without threads is inserted while others read the map (src/lib/thread_pool.cc:233-261, 267-275) |
| C92_long_name | a node whose name has 8191 bytes or more is shown by `stats nodes` with five values under one name (src/lib/op_stats.cc:234-251) |
| C93_forgotten | a node that is being rebuilt carries out a deletion, other deletions push it out of the cache of deletions, then the record from the dump arrives: the deleted value is back at this node for good (storage.cc:318-340, storage_tch.cc:130-160) |
| C94_failed_flush | the completion of a `zoo_async` that fails is given a null pointer, which is made into a `std::string` (zookeeper_coordinator.cc:415-420): a connection lost while an operation begins ends the index server; were it not for that, the failure would go unnoticed (:389-395 does not look at `rc`) and the operation would start from an old map |
| C94_expired_for_good | when the session has expired nothing makes a new one: the server keeps its old map and every operation fails until it is restarted (zookeeper_coordinator.cc:328-361) |
| C94_watch_lost_for_good | one failed `zoo_wexists` in the handler and the server is never again told of a change (zookeeper_coordinator.cc:378-383) |
| C94_failed_update | a failed load in the handler forgets the change (cluster.cc:1862-1866) |
| C94_unsaved_kept | a change that could not be stored stays in the memory of the server that tried (cluster.cc:459-469 and alike) |
| C94_own_node_refused | a `zoo_create` that was carried out and whose answer was lost is tried again, finds its own node and makes the start fail; so does the node of the last life until its session expires (zookeeper_coordinator.cc:258-272) |
| C95_unread | a shared variable that could not be read counts as absent unless it is the last one, so two index servers may use different partitionings (zookeeper_coordinator.cc:234-246); C95_unread_differ has a key they send to different partitions |
| C95_unknown_type | an unknown partition-type in the shared directory leaves the type uninitialised, and the result of the cast is ignored (flarei.cc:272-273) |
| C95_hint_below_one | partition-modular-hint is not checked: below 1 a null pointer is read at the start (key_resolver_modular.cc:88) |
| C95_no_slots | partition-modular-virtual 0 is accepted, and looking up any key then divides by zero (key_resolver_modular.cc:107) |
| C95_null_variable | a shared variable without data ends the process at its start: `string(buf, -1)` (zookeeper_coordinator.cc:242) |
| C96_long_path | `close` asks for the address of a Unix domain socket with a 16-byte `struct sockaddr` and hands the unterminated path to `unlink` (server.cc:70, 97, 110-111): undefined for paths of 14 bytes or more, and in practice the file stays or another one is removed |
| C96_killed | nothing removes the file of a Unix domain socket before `bind`, so a server that was killed does not start again (server.cc:213-218) |
| C96_chmod_left | a failed `chmod` closes the socket and leaves its file (server.cc:225-229) |
| C96_cut_off | a path of more than 107 bytes is cut off silently (server.cc:213) |
| C96_unix_connection | a connection on a Unix domain socket is constructed from a `struct sockaddr` read as a `struct sockaddr_un` (server.cc:300-302, 348) |
| C97_stale_reads, C97_missing, C97_forged | time running out does not close the connection (connection_tcp.cc:242-249, queue_proxy_read.cc:79-104): what is late is read by the next request.  All later reads of the key are told the value of the read before; a read of another key is carried out three times and told that nothing is stored, or the value that stands inside the late value |
| C97_count_twice, C97_write_thrice | behind a late value, `incr` is carried out twice and told the late number, other writes are carried out three times and told END (queue_proxy_write.cc:99-124, op_incr.cc, op_set.cc:213-231) |
| C97_late_end, C97_gat_four | if only the END behind a value is late, the read is sent again, told the value of the first time, and its second answer stays on the connection (queue_proxy_read.cc:79-104, op_get.cc:215-264); `gat` behind a late value of another key is carried out four times (queue_proxy_write.cc:99-124, op_gat.cc:62-105) |
| C97_forged_crash | a value that contains a VALUE line with the size 2147483647 makes the node that reads it behind a late answer copy from NULL (op_get.cc:245-256, connection_tcp.cc:421-465) |
| C98_part | loading a text that is cut behind `<version>` returns an error but leaves an empty node map and version 0 in memory: the second attempt, for the old format, empties the map before it fails (cluster.cc:1787-1808) |
| C98_disk_full | a save on a full disk counts as done; the next command loads the cut file, is refused, and the nodes are neither in memory nor in the file (file_coordinator.cc:91-92, cluster.cc:1795-1800) |
| C98_grown | a state of more than 8192 bytes that grows between the two requests to ZooKeeper is cut to its former length; the index server that is told of the change forgets all nodes (zookeeper_coordinator.cc:188-199, cluster.cc:1857-1869) |
| C98_restart_part | an index server that finds an empty state file starts a cluster without nodes instead of refusing to start (cluster.cc:1787) |
| C99_tcb_dump_lost, C99_slave_lacks, C99_tcb_copy_lost | with the B+ tree engine a dump (and so the reconstruction of a slave or master, and the copy to another cluster) misses the live record behind each expired one of a leaf: `get` removes the expired record, the cursor keeps its index, `tcbdbcurnext` steps over the record that has moved there; the dump ends with END and the slave becomes active (storage_tcb.cc:443-511 and 621-657, op_dump.cc:182-200) |
| C99_kch_dump_lost, C99_kch_skip, C99_kch_copy_lost | the same with Kyoto Cabinet: the cursor is moved on when its record is removed or rewritten elsewhere, and `step` moves it on once more (storage_kch.cc:612-647) |
| C99_tcb_skip, C99_tcb_dropped | with the B+ tree engine a `delete` of another client during a dump makes the dump miss a record, or end early with END (storage_tcb.cc:621-657) |
| C100_timeout_lost | a `readsize` that times out, or whose `poll` is interrupted, drops the bytes it already has and leaves the connection open; the next read starts in the middle of the block (connection_tcp.cc:244-270, 421-440) |
| C100_intr_lost | a `::read` that is interrupted in the middle of a block drops the bytes gathered so far and returns 0; `readsize` goes on and succeeds with the wrong bytes (connection_tcp.cc:309-322) |
| C100_urgent_closed | where `poll` reports urgent data (it is asked for `POLLPRI`) and `FIONREAD` no bytes, 0 bytes are asked for and the answer 0 is taken for the end of the connection (connection_tcp.cc:236, 272-297) |
| C101_refused | a sender is in the map of active threads before it runs; another caller counts it, may choose it, and its entry is refused; the copy of a write for a slave is lost with nothing but a warning (cluster.cc:2239-2262, 1470-1472, thread.cc:436-439) |
| C101_too_many | callers that find too few senders at the same time each start all that are missing; the surplus stays for ever (cluster.cc:2240-2249) |
| C101_moved | meanwhile the number of senders, by which the hash is divided, changes, and two writes of one key go to two senders, in no order (cluster.cc:2253) |
| C101_zero | `proxy-concurrency` 0 or below is accepted; the first request for another node divides by zero (cluster.cc:2240, 2253) |
| C101_gone | so does one whose senders were killed right after their start (cluster.cc:2250-2253) |
| C93_returned | a node that was away while a value was deleted comes back with it: what it holds is not removed, and a dump has records only; when the master is lost, the deleted value is what clients get (cluster.cc:1541, op_dump.cc) |
| C93_cas_reused | a node that joins learns nothing of deleted keys and, as the master, gives their versions again: a cas with the version of a value that was deleted long ago replaces another client's value (cluster.cc:1541, storage_tch.cc:130-160) |
| C102_named_by_balance | the index server names the slave with the greatest balance, not one that has all writes; the version of a write that reached only another slave is given a second time, the copy is refused as old, and the client is told `STORED` (cluster.cc:544-567) |
| C102_two_masters | a master that is cut off from the index server goes on; two masters answer `STORED` for different values with the same version (cluster.cc:1366-1417, queue_proxy_write.cc:73-126) |
| C64_size_overflow | A size in the answer of another node that does not fit in an `int` is undefined behaviour in the node that asked: the size is read without a bound and the blank and line end are added to it (op_get.cc:215-264, storage.h:142) |
| C74_columns_joined | A result with two or five columns has one message with all definitions in it, where the MySQL protocol has one message per column: the slave reads the end mark where it expects a column (mysql_replication.cc:434-446) |
| C104_disconnect, C104_stale | `client::disconnect` has its test inverted: it returns without doing anything if the connection is available, and closes it only if it is closed already (src/lib/client.cc:76-87); after a late answer `disconnect` and `connect` report success and the next `get` is told the late answer |
| C104_reused | `client::get` takes the data pointer of the entry of the caller for the answer (src/lib/client.cc:104, :122) without clearing it: with an entry that was used before, a missing key is reported as found, with the data of the other key |
| C104_get_closed, C104_injected | `client::get` and `client::gets` do not open a closed connection as `add` and `cas` do (src/lib/client.cc:92-123, :129-134); keys are sent without a check, so that a line break in a key makes the node carry out what follows it |
| C105_refused_shown | `ini_option::reload` changes the options one by one before it refuses a file (src/flared/ini_option.cc:448-471), so that `show variables` shows values that are not in force |
| C105_index_apart | `flarei::startup` lets the shared variables overrule its options in local variables only (src/flarei/flarei.cc:168-223); `show variables` prints the options (src/flarei/op_show_index.cc:89-93): a hint, number of slots, size, type or hash that is not in force |
| C105_line_break, C105_servers_alike | values are printed as they are (src/flared/show_node.cc:36-108): a line end in a value makes a line of its own, and the name of one index server can look like two |
| C41_foreign | `util::base64_decode` does not refuse bytes outside of the alphabet (src/lib/util.cc:228-291): a blank or a line end in the text becomes a byte 255 and the rest is shifted |
| C106_root, C106_relative | A data directory that is named by a relative path is pasted behind file:// and read as a URI: a name without a slash does not match and the state of every such index server goes to /flare.xml in the root of the file system; otherwise the first directory is taken for a host and dropped, so ./data becomes /data (src/flarei/flarei.cc:177-179, src/lib/coordinator.h:69-89, src/lib/file_coordinator.cc:79). |
| C106_cut, C106_shared | A question mark in the path of the data directory begins a query: directories that differ only behind it share one state (src/lib/coordinator.h:72). |
| C106_many, C106_no_path, C106_no_port | More than five ZooKeeper servers, or no path behind them, do not match the pattern; the connection string is then :0 and only a log line says so. A server without a port is asked at port 0 (src/lib/zookeeper_coordinator.h:83-118, src/lib/zookeeper_coordinator.cc:65-81). |
| C106_no_match | A file URI whose authority does not match (a password, a port that is no number) is accepted and the state goes to /flare.xml (src/lib/coordinator_factory.cc:80-90, src/lib/file_coordinator.cc:48-54). |
| C106_odd_server, C106_big_port | One ZooKeeper server that is written wrongly becomes a server without a name at port 0 in the connection string; a port beyond an int becomes port 0 (src/lib/zookeeper_coordinator.h:102-113). |
| C73_index_week | The default of net-read-timeout of an index server is in milliseconds and is multiplied by 1000 once more: it waits about a week instead of ten minutes for the rest of a request (src/flarei/ini_option.h:76, src/flarei/flarei.cc:237 and :359). |
| C73_index_command_line_lost | A reload of an index server overrules its command line (src/flarei/ini_option.cc:296-329). |
| C107_blocked, C107_week | A node map is sent to a node under the general timeout of the network, not under that of checks. If a node hangs and one node map is on its way to it, its watcher waits for that timeout, with the defaults about a week, before it counts the failure; without a node map it takes 18 seconds (src/lib/handler_monitor.cc:139-160 and :176-183, src/flarei/ini_option.h:75-76). |
| C107_starved, C107_interval_zero | A check is only made if nothing comes for a whole interval, so options that keep coming stop all checks; the interval 0 is accepted and means that no node is ever checked (src/lib/handler_monitor.cc:93-111, src/lib/thread.cc:402-411). |
| C108_interrupted, C108_garbage | A pid file that is empty (crash or full disk between opening and writing) or holds no number makes every later start end with an uncaught exception until somebody removes it (src/lib/app.cc:153-155) |
| C108_crashed, C108_zero | After a crash a server does not start if its old process id belongs to any process, its own included: in a container, where it has the same id each time, it never starts again (src/lib/app.cc:156-162) |
| C108_race, C108_unguarded, C108_lost | The pid file is checked and written in two steps, and removed without looking whose it is: servers that start together all run, and stopping one opens the directory for the next (src/lib/app.cc:151-172, :184-187) |
| C109_reload_short, C109_no_restart | A reload takes a max-connection that the server would refuse to start with: the answer of setting the limit of files is not looked at, so connections are accepted until files run out (src/flared/flared.cc:399-400, src/flarei/flarei.cc:364-365) |
| C109_wrapped | max-connection from 2147483640 on and from -8 to -1 overflow when the limit of files is computed; the server starts with fewer than 16 files asked for (src/flared/flared.cc:487, src/flarei/flarei.cc:405) |
| C110_forged, C110_same | A key with an end of a line in it (binary protocol) writes further lines of any thread, level and place into the log; texts are cut at 1023 bytes without a mark (src/lib/logger.cc:97-253, src/lib/op_get.cc:128, src/lib/handler_proxy.cc:116) |

<!-- generated below -->

## Code covered by the model

Lines cited by definitions of `Model/*` and `Spec/*` (merged ranges; constants and single calls
are cited as single lines).

| file under src | lines | model |
|---|---|---|
| flared/flared.cc | 50, 70-76, 140-301, 305-437, 440-452, 481-502 | Accept, Config, FdLimit, Halt, Logger, PidFile, ThreadPool, Watch |
| flared/handler_mysql_replication.cc | 92 | MySql |
| flared/handler_request.cc | 56-101 | BinSession, Halt, Session, Shared, Slow |
| flared/ini_option.cc | 40-92, 130, 165, 177-404, 447-584, 608-660, 663-716 | Config, Join |
| flared/ini_option.h | 101-127, 134-184 | Config, Show |
| flared/op_parser_binary_node.cc | 74-199 | BinSession, Binary |
| flared/op_parser_text_node.cc | 62-124 | Control, Session, Text |
| flared/op_show_node.cc | 61-72, 76-87, 89 | Show |
| flared/op_stats_node.cc | 67-97 | Report |
| flared/show_node.cc | 36-86, 88-108 | Show |
| flared/status_node.cc | interface | Watch |
| flared/status_node.h | 51-61 | Watch |
| flarei/flarei.cc | 168-223, 237-255, 257-281, 283, 293-333, 343-370, 399-420 | Accept, Config, FdLimit, IndexOptions, IndexStart, Logger, PidFile, ThreadPool, Uri |
| flarei/handler_request.cc | 57-98 | IndexSession |
| flarei/ini_option.cc | 48-61, 97-99, 130-134, 160-182, 184-217, 238-240, 257-338 | Config, IndexOptions, IndexStart |
| flarei/ini_option.h | 72-83, 92-113 | IndexOptions, Show |
| flarei/op_parser_binary_index.h | 40 | IndexSession |
| flarei/op_parser_text_index.cc | 58-103 | Control, IndexSession |
| flarei/op_show_index.cc | 64-103 | IndexSession, Show |
| flarei/op_stats_index.cc | 64-97 | IndexSession, Report |
| lib/app.cc | 146-193 | PidFile |
| lib/app.h | interface | Text |
| lib/binary_header.h | 158-240 | BinSession |
| lib/binary_network_mapping.h | 42-154 | Binary |
| lib/binary_request_header.h | 36-83 | Binary |
| lib/binary_response_header.h | 36-83 | Binary |
| lib/bwlimitter.cc | 36-41, 47-82 | Bwlimit |
| lib/bwlimitter.h | 39-43 | Bwlimit |
| lib/client.cc | 60-71, 76-87, 92-123, 128-157, 162-167, 172-202 | Client |
| lib/cluster.cc | 64-98, 123-193, 196-252, 258-334, 339-349, 404-489, 494-611, 625-679, 684-769, 776-857, 866-1055, 1060-1078, 1083-1094, 1099-1180, 1185-1195, 1305-1495, 1528-1604, 1606-1630, 1658-1735, 1741-1855, 1857-1869, 1874-2072, 2079-2109, 2116-2133, 2140-2170, 2172-2210, 2228-2301, 2306-2314 | Archive, ArchiveIndex, Bwlimit, Cluster, Control, Dump, Errand, Failover, Fleet, Follow, Forward, Grow, Halt, IndexSession, IndexStart, Join, Monitor, MultiIndex, MySql, NodeView, QueueLimit, Realm, Replication, Routing, SendOrder, Senders, SyncQueue, Vigil, Ward |
| lib/cluster.h | 82-85, 87-98, 107-110, 112-134, 139-145, 155-161, 167-168, 180-200, 234, 298-301, 303-315, 317-326, 328-336, 338-349, 351-361, 363-376, 378-390 | Archive, ArchiveIndex, Cast, Cluster, Config, Control, Join, NodeView, Report |
| lib/cluster_replication.cc | 73-110, 167-192, 197-220, 252-258 | Config, CrossCluster, Forward |
| lib/cluster_replication.h | 50-53, 57-60, 82-91, 93-101 | Cast, Config |
| lib/connection_tcp.cc | 50, 126-164, 175-465, 470-581, 610-631, 681-703, 718-745 | Client, Connection, DumpKey, Errand, Get, MySql, ProxyLink, Report, Slow, Socket, Text, Vigil, Wire |
| lib/connection_tcp.h | 92-113 | Connection |
| lib/coordinator.h | 69-89 | Uri |
| lib/coordinator_factory.cc | 79-108 | Uri |
| lib/file_coordinator.cc | 68-71, 78-107, 112-148 | Archive, FileCoordinator, Uri |
| lib/handler_cluster_replication.cc | 59-110 | CrossCluster, ProxyLink |
| lib/handler_controller.cc | 58-103 | Ward |
| lib/handler_dump_replication.cc | 95-135 | CrossCluster, Dump |
| lib/handler_monitor.cc | 66-77, 79-124, 131-163, 165-189, 191-202, 204-212 | Monitor, Vigil, Ward |
| lib/handler_monitor.h | 47-56 | Monitor, Vigil |
| lib/handler_proxy.cc | 62-166 | Errand, Halt, ProxyLink, SendOrder, SyncQueue |
| lib/handler_reconstruction.cc | 66-112 | Dump, Failover |
| lib/htonll.h | 65-73 | Bytes |
| lib/key_resolver.h | 43-45, 57-64, 66-72 | Cast |
| lib/key_resolver_modular.cc | 68-99, 105-108 | IndexStart, KeyResolver |
| lib/logger.cc | 60-286 | Logger |
| lib/logger.h | 49-67 | Logger |
| lib/mysql_replication.cc | 62-156, 158-237, 245-290, 292-313, 315-374, 396-431, 448-464, 529-556, 558-583 | MySql |
| lib/mysql_replication.h | 47, 77 | MySql |
| lib/op.cc | 41-47, 66-77, 93-100, 111-121, 155-176, 181-190, 193-241, 243-251, 257-266 | BinSession, Binary, Cast, Dump, Forward, IndexSession, Routing, Session, Slow, Text |
| lib/op.h | 52-70, 91, 108-139, 141-171 | BinSession, Cast |
| lib/op_append.cc | 66-75 | Binary |
| lib/op_delete.cc | 72-92, 95-134, 136-162, 170-188 | Binary, Cast, Fleet, Replication, Session, Stats, Text |
| lib/op_dump.cc | 78-160, 163-231, 237-314 | Dump, DumpKey, Grow, Iterate, Rebuild, Text |
| lib/op_dump_key.cc | 76-141, 143-177, 179-189, 191-234 | DumpKey |
| lib/op_error.cc | 39-41, 56-71 | BinSession, Session |
| lib/op_flush_all.cc | 82-127, 133-147 | Fleet, Replication, Session |
| lib/op_gat.cc | 62-105, 107-122, 127-140 | BinSession, Errand, Session |
| lib/op_get.cc | 73-112, 116-186, 188-200, 215-264, 318-331, 341-369 | BinSession, Binary, Fleet, Get, Session, Stats, SyncQueue, Text, Watch |
| lib/op_incr.cc | 75-124, 128-151, 154-201, 233-274, 276-303 | BinSession, Binary, Fleet, Forward, Replication, Session, Stats, Text |
| lib/op_keys.cc | 62-107, 109-184, 191-207, 214-251 | Keys, SyncQueue |
| lib/op_kill.cc | 59-95, 97-114 | IndexSession, ThreadPool |
| lib/op_meta.cc | 94-135, 137-227 | Control, IndexSession, Join |
| lib/op_node_add.cc | 75-117, 119-138, 141-146, 151-174 | Control, IndexSession, Join |
| lib/op_node_remove.cc | 75-118, 120-127 | IndexSession |
| lib/op_node_role.cc | 38-46, 78-153, 155-162, 165-170 | Control, IndexSession |
| lib/op_node_state.cc | 77-135, 137-144, 146-151 | Control, IndexSession |
| lib/op_node_sync.cc | 66-116, 126-143 | Control |
| lib/op_parser.h | 79-113 | BinSession, Binary, Connection, IndexSession, Session, Slow |
| lib/op_parser_binary.cc | 53-67 | BinSession, Binary, Slow |
| lib/op_parser_text.cc | 53-87 | Connection, Control, IndexSession, Session, Slow, Text |
| lib/op_ping.cc | 58-76, 78-86, 95-104 | IndexSession, Session, Watch |
| lib/op_proxy_read.cc | 60-66 | Client |
| lib/op_proxy_write.h | 62-71 | Failover |
| lib/op_quit.cc | 63-81, 83-89 | IndexSession, Session |
| lib/op_set.cc | 41, 72-95, 97-111, 113-181, 185, 187-200, 213-240 | Binary, Failover, Fleet, Forward, ProxyLink, Replication, Routing, SendOrder, Session, Stats, Text |
| lib/op_show.cc | 59-82 | IndexSession, Show |
| lib/op_shutdown.cc | 74-117, 119-126 | IndexSession |
| lib/op_stats.cc | 58-93, 112-115, 179-251, 260-298 | Binary, IndexSession, Report |
| lib/op_stats.h | 44-56 | IndexSession |
| lib/op_touch.cc | 65-85, 87-95, 97-113 | Binary, Text |
| lib/op_verbosity.cc | 71-118, 124-132 | IndexSession, Session |
| lib/op_version.cc | 57-75, 77-85, 87-93 | BinSession, IndexSession, Session |
| lib/queue_node_sync.cc | 39-67 | Realm |
| lib/queue_proxy_read.cc | 66-112, 118-122 | Errand, Get, Keys |
| lib/queue_proxy_write.cc | 51-62, 75-130, 132-195 | Errand, Failover, Fleet, Forward, ProxyLink, Replication, Retry, SendOrder, Text |
| lib/queue_proxy_write.h | 59 | Retry |
| lib/server.cc | 257-366, 402-424 | Accept, Listen |
| lib/server.h | 68 | Accept, Listen |
| lib/stats.h | 52-73, 98-99 | QueueLimit, Socket, Stats |
| lib/storage.cc | 87-225, 227-252, 256-276, 278-316, 318-341 | Binary, Bytes, Locks, Storage, Text |
| lib/storage.h | 53-58, 69-101, 103-110, 112-118, 120-129, 132-144, 148-185, 198-215, 235-262, 264-285, 287-307, 309-320, 322-332, 334-347, 349-361, 363-380, 382-398, 424-452 | Cast, KeyResolver, Locks, Storage, Text |
| lib/storage_kch.cc | 126-308, 310-434, 504-570, 597-663 | Engines, Iterate, Locks |
| lib/storage_tcb.cc | 125-310, 312-442, 479-485, 497-500, 513-579, 606-675, 685-701 | Engines, Iterate, Keys, Locks |
| lib/storage_tch.cc | 125-309, 311-442, 444-511, 513-579, 581-604, 606-670, 686-706 | Iterate, Locks, Shared, Storage, Watch |
| lib/thread.cc | 39-84, 122-134, 218-275, 286-301, 333-368, 386-430, 434-466 | Halt, Monitor, QueueLimit, SendOrder, Senders, SyncQueue, Vigil, Worker |
| lib/thread.h | 60-72, 74-78 | Report, SendOrder, Worker |
| lib/thread_handler.h | 42 | Accept |
| lib/thread_pool.cc | 60-211, 233-266 | Accept, Halt, Report, Senders, ThreadPool, Worker |
| lib/thread_queue.cc | 84-100, 119-129 | SyncQueue |
| lib/time_util.cc | 33-105 | TimeUtil |
| lib/time_watcher.cc | 87-96, 98-104, 106-112 | TimeUtil, Watch |
| lib/time_watcher_observer.cc | 42-65 | TimeUtil, Watch |
| lib/time_watcher_processor.cc | 57-61 | Watch |
| lib/util.cc | 153-164, 169-177, 182-295 | Base64, Join, Text |
| lib/util.h | 138, 157-194, 196-207, 209-221 | Text |
| lib/zookeeper_coordinator.cc | 69-81, 105-162, 172-205, 207-246, 252-294, 363-387 | Follow, IndexStart, MultiIndex, Uri, ZkCode, ZkLock |
| lib/zookeeper_coordinator.h | 83-118 | Uri |
| lib/zookeeper_lock.cc | 153-157, 275-283, 320-329, 350-361, 370-493, 495-521, 523-557, 559-575 | Follow, ZkCode, ZkLock |

Source files (.cc) no definition cites: flared/handler_alarm.cc, flared/stats_node.cc, flarefs/flarefs.cc, flarefs/fuse_fs.cc, flarefs/fuse_fs_entry.cc, flarefs/fuse_fs_entry_dir.cc, flarefs/fuse_fs_entry_file.cc, flarefs/fuse_impl.cc, flarefs/ini_option.cc, flarei/handler_alarm.cc, flarei/op_parser_binary_index.cc, flarei/stats_index.cc, flarei/status_index.cc, lib/coordinator.cc, lib/ini.cc, lib/key_resolver.cc, lib/op_add.cc, lib/op_cas.cc, lib/op_decr.cc, lib/op_getk.cc, lib/op_gets.cc, lib/op_parser.cc, lib/op_prepend.cc, lib/op_proxy_write.cc, lib/op_replace.cc, lib/queue_node_state.cc, lib/queue_update_monitor_option.cc, lib/stats.cc, lib/time_watcher_scoped_observer.cc.

## Axioms per theorem

What `#print axioms` says about every theorem of the manifest.

### none

C28_rename_fails, C37_short_rejected, C39_body_becomes_request, C45_late_signal, C48_early_ready,
C57_sleep_truncated, C57_unlimited, C58_once_partial, C67_no_thread, C73_index_applied_partial,
C73_index_command_line_lost, C73_index_history, C73_index_restart_partial, C73_index_server

### propext

C09_blocks, C101_ended, C101_gone, C107_starved, C10_stale_dump, C13_all_absent,
C15_slot_negative, C16_refusals, C17_negative, C20_split_brain, C21_orphan_slave,
C22_failed_save_promotes_proxy, C23_partition_lost, C24_startup_version_zero,
C24_version_read_race, C25_down_negative, C33_new_sender, C38_new, C43_early_return,
C43_exit_unserved, C43_preparing_not_awaited, C43_shutdown_hangs, C47_nul_key,
C48_refused_record, C49_wrong_value, C53_removed_nodes_promoted, C63_noreply_silent,
C65_no_iteration, C69_gap_at_start, C69_gap_no_failover, C69_gap_partition_lost,
C69_restore_exact, C74_flush_stays, C74_off, C75_given_twice, C75_wrong_handler, C76_closed,
C83_over_limit, C84_bin_passed_on, C84_passed_on, C84_sums, C87_buffer_read, C87_node_left,
C87_owner_refused, C87_parent_race, C87_two_inside, C90_first_failed, C90_late_down, C90_raised,
C90_stale_up, C92_all_stay, C94_expired_for_good, C94_failed_flush, C94_failed_flush_happens,
C94_failed_update, C94_unsaved_kept, C96_cut_off, C96_unix_connection

### Quot.sound, propext

C02_other_keys, C03_forgotten_restarts, C04_cas_held, C04_cas_refused, C05_get, C05_incr,
C06_refused_unchanged, C07_absent, C07_result_is_number, C08_absent_afterwards, C100_closed,
C100_counted, C100_intr_lost, C100_line_closed, C100_timeout_lost, C100_urgent_closed,
C100_written, C101_moved, C101_one_by_one_partial, C101_refused, C101_stay, C101_too_many,
C101_zero, C102_named_by_balance, C102_stopped, C102_two_masters, C103_no_key, C103_no_time,
C105_index_servers, C107_alive, C107_blocked, C107_bound, C107_checks, C107_interval_zero,
C107_late, C107_week, C107_when, C108_alone_partial, C108_crashed, C108_foreign, C108_freed,
C108_garbage, C108_guards, C108_interrupted, C108_lost, C108_orderly, C108_race, C108_unguarded,
C108_word, C108_zero, C110_cut, C11_clock_skew, C11_flush_not_replicated, C11_late_touch,
C12_forgotten_deletion, C12_leftover, C12_touch_overtakes_dump, C13_starts_again,
C15_tcb_waits_for_itself, C16_at_most_one, C16_end_between, C17_nul, C18_in_range, C18_undefined,
C24_messages, C24_version_step, C26_failed_save_stays, C26_kept, C26_obeyed, C28_disk_full,
C28_history_partial, C28_lost, C28_old_or_new_partial, C29_known_target,
C29_stale_map_loses_write, C31_loop, C33_overtaken, C35_store_unchanged, C36_next_digit,
C36_next_word, C36_request_overflow, C37_write_back, C38_network_order, C40_double_cr,
C40_lost_byte, C40_value_becomes_request, C41_decode_fits, C41_foreign, C41_round_trip,
C41_standard, C43_refused, C43_woken, C44_before_wrap, C45_every, C45_not_early,
C45_threshold_zero, C45_up, C48_ready_when, C49_overread, C50_converted_stays, C50_expiry,
C52_colon, C52_node_key_sound, C54_master_sources, C55_value_size, C56_amount,
C56_negative_amount, C58_at_most_four, C58_bounded, C58_incr_four_times, C62_copy_stays_at_slave,
C63_closed_clean, C63_late, C63_noreply_error, C63_own_answer_partial, C63_refines_partial,
C63_shift, C64_failure_is_miss, C64_keys, C64_no_key, C65_alike, C65_kch_keys, C65_kch_sync,
C65_large, C65_tcb_history, C65_tcb_stale, C66_expired, C66_partition, C66_search, C67_old_value,
C67_resurrected, C68_expired_holder, C68_late_write, C68_no_watch, C68_numbers_wrap,
C69_restore_torn, C70_async, C70_deleted, C70_dump_too_early, C70_equal_versions, C70_gave_up,
C70_leftover_wins, C70_two_masters, C71_own_outcome, C72_own_outcome, C73_index_left_out,
C73_index_list, C73_signal_lost, C73_signal_partial, C74_cells, C74_sent, C74_text_clean,
C75_accounted, C75_dead_on_stack, C75_end_told, C75_stop_awaited, C75_stop_not_awaited,
C76_prefix_partial, C76_returned_partial, C76_room_partial, C76_too_much, C76_waits_for_ever,
C76_whole_partial, C81_add_version, C82_accept_tries, C82_closed_when_full, C82_descriptors,
C82_descriptors_wrap, C82_index_leaves_some, C82_late_place, C82_node_leaves_none, C82_served,
C83_counter, C83_limit_partial, C83_no_underflow, C83_one_queue, C83_unlimited,
C84_bin_own_storage, C84_own_storage, C84_reads_add_up, C86_deleted_returns, C86_map_late,
C87_expired_leaves_nothing, C87_unlock_for_ever, C87_unlock_for_ever_step, C87_wait_for_ever,
C87_wait_for_ever_step, C88_near_none, C88_near_undefined, C88_near_unknown, C89_next_number,
C90_left_alone, C91_accounted, C91_answers_when_down, C91_asked_clerk_ends, C91_async_answered,
C91_async_lost, C91_bad_only_late, C91_late_sender_lost, C91_leaving_blocks, C91_never_sent,
C91_none_lost_partial, C91_sender_sleeps_on, C91_sender_woken, C91_signal_missed,
C91_storage_in_use, C91_storage_last_partial, C92_all_types, C92_readers_partial, C93_cas_reused,
C93_forgotten, C93_returned, C94_change_in_gap, C94_follows_partial, C94_newest,
C94_others_go_on, C94_own_node_refused, C94_setup, C94_watch_lost_for_good, C96_accepted,
C96_chmod_left, C96_killed, C96_limit, C96_long_path, C99_slave_lacks, C99_tcb_dropped,
C99_tcb_grow_partial, C99_tcb_partial, C99_tcb_skip

### Classical.choice, Quot.sound, propext

C01_incr_then_get, C01_persists, C01_reachable_ok, C01_read_your_write, C01_set_then_get,
C03_few_keys_kept, C03_history, C03_increasing, C03_step, C04_cas_absent, C04_cas_visible,
C04_single_winner, C04_single_winner_history, C05_cas_add_delete, C05_conditional, C06_add,
C06_append_prepend, C06_replace, C06_set, C06_touch, C07_incr_decr, C08_deleted_iff,
C08_refused_unchanged, C08_stale, C09_hold, C100_live, C100_reads_partial, C100_suffix,
C101_bound_partial, C101_stopped, C102_deleted_partial, C102_sole_slave, C102_stored_partial,
C103_bad_option, C103_no_size, C104_cut, C104_disconnect, C104_get_closed, C104_injected,
C104_reused, C104_session_partial, C104_stale, C104_told, C105_answered, C105_asked,
C105_in_force_partial, C105_index_apart, C105_index_in_force_partial, C105_index_known,
C105_index_told_partial, C105_known, C105_line_break, C105_refused_shown, C105_servers_alike,
C105_switches, C105_told_partial, C106_accepted, C106_apart_partial, C106_authority,
C106_big_port, C106_cut, C106_many, C106_no_match, C106_no_path, C106_no_port, C106_odd_server,
C106_relative, C106_root, C106_servers_partial, C106_shared, C106_user, C106_where,
C109_enough_partial, C109_never_lowered, C109_no_restart, C109_reload_short, C109_start,
C109_starts_iff, C109_wrapped, C10_dump_after_delete, C10_newer_set, C10_stale_set,
C10_stale_set_after_delete_resurrects, C110_facility, C110_forged, C110_levels,
C110_lines_partial, C110_names, C110_read, C110_same, C11_replica_equal_partial, C12_growing,
C12_replica_built_partial, C12_replica_rebuilt_partial, C14_history, C14_other_version,
C14_same_version_destroyed, C15_completes_partial, C15_exclusive_partial, C15_ordered_partial,
C15_progress_partial, C15_slot, C15_tcb_blocks_iteration, C17_nonneg_partial, C17_simple,
C18_min_value, C19_minimal_movement, C20_one_master_partial, C21_consistent_partial,
C22_failover_partial, C23_partitions_stay_partial, C24_newest_wins, C24_stale_ignored,
C25_accepted, C25_index_tables_partial, C25_node_tables, C26_rejected_unchanged_partial,
C27_restart_same_partial, C27_restart_text_partial, C27_restart_works_partial,
C27_works_text_partial, C29_agreement, C29_decision, C29_no_partition, C30_one_hop_partial,
C30_proportional, C30_target, C31_bounded_partial, C31_copies_bounded, C32_copies,
C32_exactly_once, C33_any_order, C33_fifo_partial, C33_one_writer, C33_order_partial,
C33_sets_converge, C34_answer, C34_dump, C34_response_fits, C35_forwarded_writes,
C35_key_injection, C35_request_fits, C36_next_digit_token_partial, C37_round_trip, C38_fields,
C38_get_answer, C38_quiet, C39_framing, C39_inside_partial, C39_packets, C39_reads_outside,
C39_round_trip, C40_forwarded_partial, C40_reads, C40_request_partial, C40_split, C42_casts,
C42_compatible, C42_options, C43_one, C43_served_partial, C44_exclusive, C44_found,
C44_pools_collide, C44_unique_partial, C45_bounded, C46_add_sub, C46_add_sub_cancel,
C46_conversions, C46_is_bigger, C46_observe, C47_end, C47_once, C47_only, C47_partitions,
C47_store_partial, C48_both_ends, C48_busy, C48_copied, C48_cut, C48_end_marker_partial,
C48_master_partial, C48_shutdown_activates, C48_stuck, C49_own_value_partial, C51_even_movement,
C51_total, C52_node_key_back_partial, C52_node_key_injective, C53_thread_types_partial,
C54_only_from_proxy, C54_slave_source, C55_size_overflow, C57_accounting, C57_clock_set_back,
C57_defined, C57_not_slower_partial, C57_parts, C57_rate_partial, C58_add_wrong_answer,
C58_append_twice, C58_cas_wrong_answer, C58_copy_repeated, C58_delete_wrong_answer,
C58_incr_counted, C58_set_value, C59_answer, C59_newline, C60_add, C60_other_word, C60_role,
C60_role_short, C60_state, C60_state_refused, C60_sync, C60_sync_no_version, C60_unknown_role,
C61_meta, C61_no_number, C61_same_partition, C61_too_large, C61_type_missing, C61_unknown,
C62_amount_lost, C62_cas_forwarded, C62_forwarded_partial, C62_text, C64_absent, C64_answers,
C64_error_shifts, C64_forwarded, C64_late_end, C64_local, C64_mixed, C64_mixed_answer,
C64_overread, C64_repeated, C64_size_overflow, C64_unchanged_partial, C64_version_lost,
C65_history, C65_tcb_wrong_key, C66_answers, C66_bad_limit, C66_forwarded, C66_left_over,
C66_lost, C66_phantom, C66_request, C66_truncated, C66_twice, C66_unable_lost,
C66_wrong_prefixes, C67_any_order_partial, C67_comes_back, C67_last_copy_partial, C67_one_thread,
C68_in_order_partial, C68_names, C68_next_gets_it_partial, C68_no_lost_update_partial,
C68_one_holder_partial, C68_printed_width, C68_watches_next_partial, C69_as_one_partial,
C69_one_master_partial, C70_agree_partial, C70_answered, C70_kept_partial, C70_monotone_partial,
C70_not_copied, C70_slave_behind, C70_succession_partial, C70_unwritten, C71_cut_value,
C71_effects, C71_end_not_checked, C71_gat_forwarded, C71_gat_no_end, C71_gat_noreply,
C71_in_step_partial, C71_key_with_blank, C71_noreply_answered, C71_out_of_step, C71_own_told,
C71_quit, C71_refused_line, C71_value_as_requests, C72_cut_off, C72_in_step_partial, C72_magic,
C72_meaning, C72_never_quiet, C72_number_as_text, C72_quit, C72_tag_lost, C72_unknown_as_noop,
C73_accepted, C73_again, C73_applied, C73_cluster_replication_off, C73_command_line_lost,
C73_index_misread, C73_index_on_command_line, C73_index_options, C73_index_week, C73_no_range,
C73_options, C73_refused_kept, C73_refused_later, C73_refused_limit, C73_removed_stays,
C73_restart_partial, C74_backslash, C74_beginning, C74_beyond, C74_column, C74_columns_joined,
C74_delete_all, C74_full_packet, C74_full_packet_exists, C74_greeting, C74_hello, C74_injection,
C74_mirror_partial, C74_nul, C74_overtaken, C74_query_cut, C74_quote_stops, C74_row,
C74_set_names, C74_signed_length, C74_silent, C74_stream, C74_welcome, C75_own_entries_partial,
C75_start_comes, C75_start_missed, C75_start_told, C75_started_once_partial, C76_arrives_partial,
C76_eighth_call, C76_zero_loses, C76_zero_skips, C77_between_requests_partial, C77_break,
C77_late_body, C77_late_value, C77_value_carried_out, C78_answered, C78_asked, C78_every_line,
C78_failure_told, C78_glued_taken, C78_history, C78_line_partial, C78_more_taken, C78_one_master,
C78_session_partial, C78_told, C78_typo_taken, C79_clients_partial, C79_eviction_undone,
C79_flush_undone, C79_get_torn, C79_hold_lost, C79_one_memory_partial, C79_orderly,
C79_orderly_clients, C80_clients_partial, C80_flush_one_node, C80_number, C80_one_memory_partial,
C80_orderly_partial, C80_stale_read, C81_append_version, C81_clients_partial, C81_delete_version,
C81_no_initial, C81_orderly_clients, C81_version_planted, C82_bound, C82_idle_bound,
C82_one_at_a_time, C82_one_fate, C82_total, C82_total_asked, C83_refused, C84_bin_refused,
C84_bin_told_partial, C84_key_twice, C84_told_partial, C85_accepted, C85_asked, C85_asked_keys,
C85_busy, C85_cut, C85_expired_listed, C85_key_ends_list, C85_listed_partial, C85_only,
C85_outside, C85_overflow, C86_grown_partial, C86_moved_partial, C86_only_new_keys,
C87_front_partial, C87_inside_first_partial, C87_next_gets_in_partial, C87_nothing_left_partial,
C87_one_inside_partial, C87_one_node_partial, C88_again_partial, C88_cut, C88_joined_partial,
C88_near, C88_near_one_unknown, C88_older, C88_own_partial, C88_refused, C88_session,
C88_taken_partial, C88_whole_list, C89_broken, C89_default_breaks, C89_for_good, C89_hanging,
C89_ping, C89_sound, C89_taken_out, C89_warn_hides, C89_watched, C90_brought_up, C90_taken_down,
C90_watched_partial, C91_ends, C91_time, C92_long_name, C92_nodes_binary, C92_nodes_found,
C92_nodes_known, C92_nodes_text, C92_readers_race, C92_threads_binary, C92_threads_text,
C93_agree_partial, C93_deleted_partial, C93_in_order_partial, C93_monotone_partial,
C93_stored_partial, C93_succession_partial, C93_succession_stored_partial, C95_hash_apart,
C95_hint_below_one, C95_last_read, C95_no_slots, C95_null_variable, C95_resolves, C95_same,
C95_unknown_type, C95_unread, C95_unread_differ, C96_again_partial, C96_all_closed,
C96_files_partial, C97_answered, C97_count_twice, C97_forged, C97_forged_crash, C97_fresh,
C97_gat_four, C97_late_end, C97_missing, C97_own_partial, C97_stale_reads, C97_write_thrice,
C98_accepted, C98_any_text, C98_disk_full, C98_entities, C98_grown, C98_injective, C98_member,
C98_old, C98_part, C98_restart_part, C98_round_trip, C98_stored, C98_twice, C98_update_partial,
C99_ends, C99_kch_copy_lost, C99_kch_dump, C99_kch_dump_lost, C99_kch_partial, C99_kch_skip,
C99_list, C99_no_expired_partial, C99_tcb_copy_lost, C99_tcb_dump, C99_tcb_dump_lost, C99_tch,
C99_tch_copy, C99_tch_dump
