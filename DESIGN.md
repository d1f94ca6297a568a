# Formal model of kdufla/Nargun in Lean 4

## 1. Layout

```
lean/Verif/Model/*.lean   the model: one Lean module per Rust module, every definition cites /repo file:lines
lean/Verif/Spec/*.lean    small specifications, written without reference to the model's helpers
lean/Verif/Lemmas/*.lean  helper lemmas (not claims)
lean/Verif/Props/*.lean   the property theorems (what MANIFEST.json lists) and their non-vacuity examples
lean/Verif/Conformance/*.lean  the repository's unit tests, run on the model (tests, not claims)
properties.jsonl          the English properties (C01 ...)
seeded/LOG.jsonl          mutation log: model edits tried in a scratch copy and the theorems that broke
```

## 2. Modelling conventions

* **Bytes** are `BitVec 8`, `usize`/`u64`/`u32` counters are `Nat` with the wrap/limit made explicit
  where the code's behaviour depends on it.
* **Result of a call**: `Res α = ok a | err | panic`.  `panic` is a Rust panic (index out of range,
  `unwrap` on `None`, `todo!()`, arithmetic underflow with overflow checks).  Arithmetic that can underflow
  takes a build profile (`debug` = overflow checks, `release` = wrap modulo 2^64) where the two differ
  observably; otherwise the checked behaviour is modelled.
* **Hash maps / sets** are association lists.  The list order *is* the iteration order, and theorems
  quantify over all lists, so they hold for every iteration order; histories contain explicit `shuffle`
  steps where an operation's result depends on the order.
* **Concurrency**: state shared behind a `Mutex`, or owned by one task and fed by a channel, is a
  sequential state machine; a theorem over all operation lists covers all interleavings of the tasks.
* **External functions** (SHA-1, random source, clock, UTF-8 validity, the OS) are parameters of the
  model; theorems hold for all of them.  Times are natural numbers (nanoseconds).
* **Third-party crates**: `bendy` (bencode), `bincode`, `serde` (derive, untagged, flatten), `urlencoding`,
  the `tokio` channels and (in `OpenFiles`) the background writes of `tokio::fs::File` are modelled from their documented
  behaviour; their source is not in the sandbox.
* **Fairness**: the theorems with `_always_` in their name quantify over infinite executions and assume, as a
  hypothesis spelled out in `Spec/Fair.lean`, `Spec/FairTorrent.lean` and `Spec/FairLookup.lean`, that the scheduler and
  the environment do not put off a task for ever. The hypothesis rules out no history:
  `Program.every_history_goes_on_fairly` proves that every finite history of the program begins an execution that meets
  all of it (a scheduler that deals with countably many classes of events, `Lemmas/Scheduler.lean`).

## 3. Violated properties

If the code does not have a property, the theorem file proves the negation for a concrete reachable
case (suffix `_violated`), and the strongest true part is proved under the suffix `_partial`.

## 4. Trusted base

* Lean 4.33.0's kernel.
* The axioms `propext`, `Classical.choice`, `Quot.sound`; every claimed theorem depends on a subset of these three
  (`#print axioms`), and on nothing else: no `sorry`, no `native_decide`, no `bv_decide`, no added axioms.
* That the definitions in `Verif/Model` say what the cited Rust lines do, and that the definitions in `Verif/Spec` say
  what the English properties say. Mutation tests of this are in `seeded/LOG.jsonl`. The repository's own unit tests,
  run on the model by the kernel with their literals, are in `Verif/Conformance` (they are tests of the transcription,
  not claims): all of them except `single_parse` and `hasher` (files of 292 KB and 2 MB), the two `write_then_read`
  tests (covered by C50 and C52), the mock self-test and the type conversions of `peer.rs`. `multi_parse` runs on the
  embedded torrent file with a concrete SHA-1, so bencode, metainfo and the info hash are checked against real data.
* The models of third-party crates and of the operating system listed below.

### 4.1 What is modelled

| Rust file | Lean model | not modelled / simplified |
|-----------|------------|---------------------------|
| `data_structures/bitmap.rs` | `Bitmap` | `Display` |
| `data_structures/id.rs`, `serializable_buf.rs` | `Id`, `IdText`, `Krpc`, `TableFile` | the `Debug` text of `SerializableBuf` |
| `peers/connection/message.rs` | `Message`, `Receiver` | socket errors end the loop; the async reads are an arbitrary schedule of read sizes |
| `peers/connection/handshake.rs` | `Handshake` | TCP connect and its timeout |
| `peers/connection/pending_pieces.rs`, `downloader.rs` | `PendingPieces`, `PendingTimed`, `Downloader` | one clock reading per call in `PendingPieces` and everything built on it; `PendingTimed` has every reading of `take_not_good_blocks`, and C154 says what that changes |
| `peers/connection/connection_manager.rs`, `connection_handle.rs` | `Connection` | channel capacities are not in this model |
| `connection_handle.rs`: the calls that give messages to peers, `disconnect`; `connection_manager.rs`: `manager_sender`, `_keep_alive_sender` | `Handle` | used by an arbitrary client (the program calls only `connect` and `download_piece`); after a failed write the stream takes no more bytes; why a connection ends is left open |
| `peers/peer.rs`, `active_peers.rs` | `Addr`, `Peers` | the lock is not modelled; that it cannot be poisoned is C150 |
| `torrent_manager.rs` | `TorrentManager` | the timer is a tick at any time; spawning of connections is an output |
| `tracker/*` | `Announce`, `TrackerManager`, `TrackerResponse` | reqwest: a request fails or yields a body; UDP trackers are `todo` in the code |
| `transcoding/metainfo.rs` | `Bencode`, `Metainfo` | reading the file; UTF-8 validity is a parameter |
| `transcoding/metainfo.rs`: the memory of the piece hashes | `Memory` | a vector is address, length, capacity; freeing with another layout is undefined behaviour. `ID` is taken to be 20 bytes with alignment 1 |
| `fs/mod.rs`, `single_file_rw.rs`, `multi_file_rw.rs`, `multi_file_iter.rs` | `Fs`, `DirBuilder`, `DirBuilderFails`, `Storage`, `OpenFiles` | one write is atomic and visible at once (not in `OpenFiles`); in `Fs` no path aliasing (in `Storage` paths are followed in the tree); no symbolic links; in `DirBuilder` a directory can be made at a location or not and `remove_dir_all` does not fail (in `DirBuilderFails` every call may fail and the removal may stop anywhere, C156) |
| `fs/file_cache.rs` | `FileCache` | sums of elapsed times stay below 2^64 seconds |
| `dht/routing_table/*` | `RoutingTable`, `RoutingTimed`, `TableFile` | one clock reading per call in `RoutingTable` and everything built on it; `RoutingTimed` has every reading, and C155 says what that changes; sorting by distance is an abstract stable sort; bincode's format from its documentation |
| `dht/krpc_message.rs` | `Krpc` | bendy/serde rules from their documentation; whether an integer fits is a parameter |
| `dht/connection/*` | `DhtConnection` | encoding never fails; errors of the socket are in `Trouble` |
| `dht/peer_fetcher.rs` | `Fetcher` | that the connection is gone, which ends the task, is in `Program` |
| `dht/dht_manager.rs` | `DhtManager`, `DhtManagerTimed` | one clock reading per turn in `DhtManager` and everything built on it; `DhtManagerTimed` has every reading and turns that take time, and C157 says what that changes; `choose_multiple` is a prefix of an arbitrary permutation |
| `dht/mod.rs` and the channels between the DHT tasks | `DhtSystem` | the state change of a turn happens at its beginning, its outputs one by one afterwards; lookups are arbitrary tasks that never drop their receiver; the end of the socket task when all senders are dropped |
| the tasks of `torrent_manager.rs`, `connection_manager.rs`, `downloader.rs` and the queues and the lock between them | `Swarm` | `TorrentManager` is cut into steps (tick, one assignment, one message), so that the manager can wait between them; whether the owner of requests is set is a parameter (`AsWritten`: never, as in the code); a task that panics drops its queues; sending `unreachable` and reading are single steps |
| `main.rs`: all tasks together | `Program` | composition of `Swarm`, `DhtSystem`, `Fetcher`, one `TrackerManager` per tracker and `Shutdown` over one shared table of peers; it begins when `main` waits for Ctrl-C; the clocks of the tasks are independent; nothing happens after `main` has returned; there is one lookup task (C99) |
| `main.rs`, `dht/connection/connection_manager.rs`: errors of the UDP socket and of `ctrl_c` | `Trouble` | any datagram may be refused, any reading and the waiting for Ctrl-C may fail; why is left open |
| `main.rs`: the start | `Launch` | from the torrent file, the stored table, the directory tree, the gateway and the UDP port to the state `Program` begins with; a task that panics at its start is gone; the first step of every task (creating the storage, binding the socket) is done when `main` waits for Ctrl-C. `FS::new` is called here; nothing calls `FS`'s reading and writing (C128 is about them nevertheless) |
| `gateway_device.rs` | `Gateway` | `open_any_port` on the table of forwarded ports of a gateway; what the gateway answers (refusal or any port) and whether there is one is left open; the UPnP messages of the `igd` crate are not modelled |
| `shutdown.rs` | `Shutdown` | tokio's broadcast and mpsc semantics from their documentation |
| `capped_growing_interval.rs` | `Interval` | exact rationals with infinities and NaN instead of rounded floats; `x^3.7` is a monotone parameter |

Not modelled: command line and logging set-up of `main.rs` (the rest is in `Launch` and `Program`), `config.rs` (the path of the torrent file), `macros.rs`,
logging.

## 5. Plan per property

| id | model | proof |
|----|-------|-------|
| C01-C04 | `Bitmap` byte list + len, shift/mask ops as in the code, panics explicit | per-byte facts by kernel `decide` over all bytes x offsets, lifted over lists; induction over write histories |
| C05-C10 | `ID` = 20 bytes; loops as in the code | bit-extensionality; `toNat` big-endian value for order; SWAR popcount by byte lanes |
| C11-C13 | `Message`, `encode`, `fromBuf` | case analysis; big-endian round trip lemma |
| C14-C17 | receiver loop with its 16512-byte buffer, reads chosen by an arbitrary schedule | invariant: buffer ++ unread stream = remaining encodings |
| C18-C19 | 68-byte handshake, first read of arbitrary size | direct; witness for missing info-hash check |
| C20 | 6- and 26-byte codecs | round trip |
| C21-C26 | `PendingPieces` map, all public operations, clock parameter | invariants over op histories; witnesses for the counter defects |
| C27-C30 | downloader event loop | invariants over event histories |
| C31-C34 | `Peers` map | list lemmas for filter/take, order independent |
| C35-C40 | `TorrentManager` state machine | invariants over histories; counting lemma for availability |
| C41-C42 | `Connection` peer map; choke lock queue | state machine |
| C43-C44 | URL text, percent encoding | round trip with an independent percent-decoder / query splitter |
| C45-C48 | tracker task state machine with environment events | trace invariants |
| C49 | response decoding from bencode values | list chunking |
| C50-C53 | files as byte lists, write-at/read-at, the two RW implementations | refinement to one flat byte space |
| C54-C55, C57 | directory list construction and creation on an abstract directory tree | sort/prefix lemmas; witnesses |
| C56 | cache state machine | invariant + extremality of the evicted entry |
| C58-C63 | bencode codec, metainfo decoding | codec round trip and canonicity by mutual induction |
| C64-C69 | buckets and table, all public operations | inductive invariant; prefix-class argument for closest nodes |
| C70 | bincode encoder/decoder of the table | round trip; every proper prefix is refused |
| C71-C73 | message <-> bencode values with serde's untagged/flatten rules | case analysis on top of the bencode codec |
| C74-C77 | UDP task with its reused buffer, pending table, tokens | step relation; witnesses |
| C78 | peer store of the DHT manager | list/map lemmas |
| C79-C81 | peer fetcher state machine | invariants |
| C82-C83 | broadcast + alive-marker state machine | invariants over op histories |
| C84 | delay sequence over an arbitrary linear order (floats not modelled) | induction |
| C85 | as C21-C26 | per-block case analysis on the request table |
| C86 | as C31-C34 | prefix of a filtered list |
| C87 | as C35-C40 | trace invariant between ticks |
| C88-C89 | as C45-C48 | trace invariants |
| C90 | as C70 | witnesses for the panicking files; well-formed files load |
| C91, C93, C97-C101 | table task as a step relation on top of `RoutingTable` and `Peers` | invariants over histories; `Kind` lemma: what a turn can be; witnesses; C91 also for whole fair executions (`C91_always_partial`; `FairTable` in `Spec/FairLookup.lean`: the table task's timer is looked at and its time passes): either refreshed again and again or kept busy for ever |
| C92 | `DhtSystem`: socket task, table task, lookups, bounded queues | explicit flood and an absorbing set of states; draining by a work measure; over the whole program (with the lookup) the jammed states are characterised exactly: an invariant keeps a jam for ever, and from every other state explicit steps work off everything; for all fair executions (`Spec/Fair.lean`): every queue is emptied again and again, by the order in which tasks can block each other (`Props/ProgramFairFlow.lean`) |
| C94-C95 | as C74-C77, with an independent description of BEP 5 dictionaries | case analysis; encoder facts |
| C96 | as C79-C81; `C96_always_partial`: the whole `Program`, fair executions (`Spec/FairLookup.lean`) | trace invariant; witness; for all fair executions: there is room in the queue of commands again and again (C92), so everything the lookup decides on is handed over; if no round begins and no answer is heard any more, time passes until the timer of the round or of the pause fires |
| C102-C104, C106-C107 | `DhtSystem` | conservation invariant (`Flow`): produced = consumed ++ queued ++ pending; theorems on the single tasks are lifted along it |
| C105 | `DhtSystem` | absorbing set of states; converse by C95 |
| C108-C113 | `Swarm`: manager, one connection task and one downloader per peer, four kinds of bounded queues, the shared lock | conservation invariants; histories of the parts are projections of the history of the whole, and the theorems on the parts (C05-C07, C21-C30, C35-C40) are lifted along them |
| C114 | `Swarm` | explicit steps of the downloader from every reachable state |
| C115-C118 | `Swarm` | absorbing sets of states, executable examples (`SwarmDemo`); the parts that hold by invariants |
| C119, C122 | `Program` | what a part does in the whole is a history of the part; invariants over the whole; executable examples (`ProgramDemo`) for the violations |
| C121 | `Program` | every peer in the table has a source (invariant); theorems on the parts (C79, C104, C107) carried over by projection |
| C124 | `Program` | counting: answers queued, handed over and still possible for the lookup are at most the queries asked minus the answers heard, so its queue of 64 has room; violated: the answers are put in one after the other by induction, and an invariant says that the socket task then waits until the lookup's clock passes the end of the pause; with a peer that fills the queue of commands by messages about DHT nodes, the jam of C92 results, for ever |
| C123, C126 | `Program` | bencoding is injective, so the bytes of a datagram say which query it is; from the datagram back to the command, to the task that put it, and to the answer it is based on |
| C120 | `Program` | the flood of C92 lifted into the whole program; for the other part, explicit steps of every task from every reachable state that is not jammed; `C120_always_partial`: infinite executions (`Spec/Fair.lean`) in which each class of steps that is possible again and again is taken again and again (strong fairness, an assumption on the tokio scheduler and on the trackers' answers), a decreasing count of unfinished work settles, and fairness then forces the exit |
| C125 | `Program` | what each step does with the status of one peer in the shared table; invariants over the continuation of a history; `C125_always_partial`: fair executions, the timer fires again and again because the manager comes back to its `select!` (C148) |
| C127 | `Program` | invariant of the task of a tracker under the inputs it gets in this program; an executed download for the violation |
| C128 | `Storage` | simulation between the tree of directories and the files by path (`Mirror`), so that C50, C52, C53 and C54 hold in the tree; directories never disappear, for the violations |
| C129 | `Storage`, `Metainfo` | from C128; case distinction on whether the data differ from the piece of the contents |
| C130 | `Launch` | the parts of the start one by one (C54, C61); for the violations: the directory made by the first start is still there, and a manager that is gone stays gone (C115) |
| C131 | `Launch`, `Program`, `TableFile` | induction over sessions: C103 in each session, the own id never changes, every prefix of a stored table is refused or the table (C70) |
| C132 | `Launch`, `Program`, `TableFile` | from C119 (what is stored before the process ends) and C70 (what is stored is loaded); nothing is stored before the signal is noticed |
| C133 | `Launch`, `Program`, `Swarm` | from C111 and C112 along the projection of the program to the torrent side; invariant that a report of a finished piece stays first in the queue of the manager until it panics |
| C134 | `Gateway`, `Launch`, `Program` | the port announced is the one the gateway opened: invariant of each tracker task, and of the lookup, along the projections of the program; the mapping as the start left it |
| C135 | `Gateway`, `Launch` | induction over the sequence of starts, each of which only inserts; violated: nothing is ever removed |
| C136 | `DhtSystem`, `Program` | the exact fields of every datagram (C104), lengths of bencoded values, transaction ids and tokens are no longer than the buffer they were read from (C72, C123) |
| C137 | `DhtSystem`, `Program` | violated: 1300/6 peers of 8 bytes each; otherwise from the lengths of C136 |
| C138 | `OpenFiles` | invariant: every failed write that was not reported is the last one of an open handle (`Admitted`), by a Hoare rule for the storage functions on any file system; violated: the last write of a piece |
| C139 | `OpenFiles`, `Storage` | at most 16 files: simulation with the files by path (`Alike`), as a handle has one write under way at most; any number: every byte is right in the file or still to be written (`Right`), in whatever order writes are performed; violated: 17 files, decided on a concrete run |
| C140 | `Trouble`: `Program` with errors of the socket and of waiting for Ctrl-C at any time | simulation: a refused datagram is a lost one, an error on reading is like a datagram at which the socket task panics, so all theorems about states of `Program` carry over; violated: the socket task ends |
| C141, C142 | `Handle` | invariant over all histories of calls and task steps: messages said = messages written ++ queue, bytes written a prefix of the wire forms; C14 for the receiving end; violated: a broken stream takes nothing in any continuation |
| C145 | `DhtConnection` | from C77: the secret is the same in all states of a run |
| C146 | `DhtManager`, `RoutingTable`, `Launch` | violated: from C67 and C64 (a full last bucket of 161 would hold the own id eight times); partial: from C131 and C103 |
| C147 | the whole `Program`, fair executions | violated: the flood of C92; partial: the emptied queues of C92 chained from the socket to the socket, and the tags of C102 that say which datagram answers which query |
| C148 | the whole `Program`, fair executions (`Spec/FairTorrent.lean`: no connection, downloader, manager or table task is passed over for ever) | violated: a `request` kills the manager, so that nothing is heard any more; partial: ranks of the connection, the downloader and the manager that every own step lowers (`Lemmas/SwarmFair.lean`), so that each task comes back to its `select!`; then every queue that is never empty is taken from again and again, and the exact contents of the queues (C109) turn this into: what was read is handed over, what was handed over is taken |
| C149 | the tracker tasks in the whole `Program`, executions in which no wait of a tracker task lasts for ever (`Spec/FairTrackers.lean`) | every step of the task that changes what it waits for leads on towards a request; without Ctrl-C it never exits |
| C150 | `Peers` in a build that checks arithmetic (`Op.checked`) | a pass never activates more peers than are left to the limit, so the subtraction does not underflow |
| C151 | the whole `Program`; fair executions (`Spec/Fair.lean`), what leaves the socket (`Spec/Joins.lean`) | what the table task and the lookup decide on gets into the queue of commands, is taken and leaves (as for C92); whoever answers, some stored node is good afterwards, so the task no longer waits; violated: with an empty table and no peer that tells of a node, induction over the history with C126 and C103: a first query would need a reason; over all sessions, induction over them with C131: a stored node has answered a query in an earlier session |
| C152 | `Con` (the task behind the socket); what BEP 5 says an announcement is about (`Spec/Bep5.lean`) | decoding of conforming dictionaries (C72) and the effect of announcements (C77), after any history; violated: the key `implied_port` has no influence |
| C153 | `Con` and the whole `Program`; errors of BEP 5 (`Spec/Bep5.lean`) | case analysis of a step for the harmlessness; violated: every datagram sent is a query or an answer (C102), and these begin differently from errors |
| C154 | `PendingTimed`: `take_not_good_blocks` with a reading of the clock for every block it looks at | as C22 and C85: each of the two passes as a map over the blocks; invariant of histories; the bound of seven seconds on a call is shown to be needed |
| C155 | `RoutingTimed`: every reading of the clock in the routing table is a value of its own | the invariant of C64 for all readings; goodness only ends, so what was not good at a reading is not good at the end, and what was good at a reading was good at the beginning |
| C156 | `DirBuilderFails`: `create_dirs` as a relation, every call may fail, the removal takes entries away one by one and may stop anywhere | an invariant of the loop and of the removal (outside unchanged, below only directories of the torrent, each with its parent); the outcomes of C54 are among those of the relation; violated: the torrent's directory stays and every later start panics |
| C157 | `DhtManagerTimed`: a turn has a beginning and an end, every reading of the clock in between is a value of its own | C155 for each call of the table, lifted to turns and histories; the histories of `DhtManager` are among those considered (`C157_covers`) |
| C158 | `IdText`: the characters the formatting macros yield, by their documentation | an independent reader of the text (`Spec.idInText`) gives back the bytes; induction over the chunks |
| C159 | `DhtSystem`, `Program`: the composition of the tasks | every step of a part whose cause is present (`Spec.Ready`) is a step of the whole; cases on the steps of the parts. It guards against a composition that leaves out behaviour, about which theorems for all histories say nothing |
| C144 | `Memory` | arithmetic of lengths and capacities; C58 for the contents |
| C143 | `Launch`, `Program`, `Swarm`; `Handle` for the keep-alive task | violated: every message written is a request (C112); partial: counting invariant of the interval |

## 6. Findings beyond the listed properties

* The entry of the own torrent in the peer store of the DHT is written at the start and never read (`find_peers` answers
  from the shared table instead).
* `ID::cmp` compares bit lengths only, so distinct ids can be `Equal` (C08).
* The end of a connection task is reported to nobody, except for a failed handshake; `Connection::disconnect` is never called,
  so a peer gets tasks at most once (C117, C118).
* `TorrentManager::spawn` gets no shutdown receiver; the lookups of the DHT get none either, so shutdown does not wait
  for them. `pieces_downloaded` is never incremented, so trackers are always told that everything is left.
* The program announces a TCP port to trackers and DHT nodes, but nowhere listens for TCP connections: all connections are
  made by itself (C121). The UDP port opened at the gateway is not used either; the DHT socket has a fixed port.
