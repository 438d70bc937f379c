# Formal model of opencbdc-tx: design

The sources in `/repo` are read as text and modelled by hand in Lean 4 under
`lean/Verif/`. Nothing in `/repo` is built or executed.

## Trusted base

* The Lean 4.33.0 kernel, and the three standard axioms `propext`,
  `Classical.choice`, `Quot.sound` where a theorem's `#print axioms` lists
  them. No axiom is added, and `sorry`, `admit`, `native_decide`, `bv_decide`
  are not used.
* The hand translation from C++ to Lean. Each definition cites file and lines
  and says where it simplifies.
* Primitives that are parameters of the model, never axioms: SHA-256, SipHash,
  Keccak, secp256k1 parsing/verification/recovery are arbitrary functions.
  Where a statement needs collision freedom it appears as an explicit
  hypothesis about the two preimages involved, or as injectivity of the
  parameter; an example beside the theorem shows it is satisfiable.
* Third-party code is not modelled: NuRaft (a replicated state machine is a
  totally ordered list of commands), LevelDB (a finite map whose write batches
  are atomic), evmone (an arbitrary sequence of host calls), Lua, sockets.
* Allocation failure, exceptions from the standard library and thread
  creation are outside the model, except where a size computation wraps: that
  is a distinct `ub`/`throws` outcome.

## Conventions

* One directory per component. `*/Model.lean` is the translation,
  `*/Spec.lean` the independent specification, `*/Lemmas.lean` helpers, and
  `*/Props.lean` the theorems listed in `MANIFEST.json`.
* `std::unordered_map`/`std::map` become total functions into `Option` (or
  association lists where iteration order is observable), `uint64_t` becomes
  `UInt64`/`BitVec 64` where wrap-around can matter and `Nat` otherwise (the
  comment says which).
* Undefined behaviour (out of range indexing, memcpy past an object) is a
  distinct outcome of the modelled function.
* A theorem whose name ends in `_partial` proves less than the property; the
  note in `MANIFEST.json` says what is missing. Where the code contradicts the
  property, a theorem ending in `_violated` proves the negation of the full
  statement from a concrete reachable execution, and the `_partial` theorem
  proves the part that holds.

## Plan per property

| id | what is modelled | how it is proved |
|----|------------------|------------------|
| C01 C02 | `Serial`: codec combinators over byte lists for every `operator<<`/`operator>>` template | generic round-trip and extension (prefix-free) lemmas, one per combinator; composed by instances |
| C03 | codecs of transaction messages | composition of C01; injectivity from round-trip |
| C04 | `while(set.size() < allocated)` loops with the dedup insert | negation witness (duplicate element), partial for distinct elements |
| C05 C06 | `tx_id`, `uhs_id_from_output`, `input::hash`, `compact_tx` over an abstract hash | injectivity of the codec + collision hypothesis |
| C07 C08 C09 C10 | `validation.cpp` function by function with `UInt64` totals | decision logic lemma (iff), overflow induction on the running total |
| C11 C12 C13 C14 C15 | `locking_shard.cpp` as `init`/`step` over requests | invariants by induction over histories; C11 and C15 have counterexamples in the code (see Findings); partial versions |
| C16 C17 | `distributed_tx` over n shards, coordinator replicated state, crash/recover transitions | transition system, invariant tying every shard's applied decision to the recorded one |
| C18 | sentinel_2pc as event-driven machine | invariants on the emitted replies |
| C19 C20 C21 C22 | `atomizer.cpp` function by function + abstract honest shards | inductive invariant relating cache window, attestation heights and the chain |
| C23 C24 | `shard.cpp` over a map-valued database | refinement to fold of blocks |
| C25 | archiver with deferred map | invariant: stored heights are exactly 1..best |
| C26 C27 | block/error cache queues | refinement to "last k" |
| C28 | `send_compact_tx` loops | the code indexes with the wrong variable: negation witness; partial |
| C29 C30 | wallet as sets and queue | invariants; one operation order breaks C30 (see Findings) |
| C31 | client maps | invariants; counterexample for two imported outputs of one transaction |
| C32 | `cache_set` | refinement to "last capacity-1"; off by one against the documentation |
| C33 | queue with mutex-atomic steps and wait/wake | transition system with arbitrary scheduler |
| C34 | log store over a map | invariant; compaction of the whole log followed by restart resets the index |
| C35 | RPC client response table | trace invariant |
| C36 | arithmetic | omega/induction |
| C37 | hex conversion with stream semantics | induction; non-hex second digit is accepted by the code |
| C38 | bech32 with `BitVec` polymod | linearity of polymod; address decoding has two counterexamples |
| C39–C45 | Parsec lock table (`impl.cpp`) | one large inductive invariant over all operations |
| C46 | replicated shard with move semantics | second commit writes moved-from (empty) buffers: negation, partial |
| C47 C48 | broker as event-driven machine over arbitrary reply orders | invariants |
| C49 | ticket machine and client queues | disjointness invariant |
| C50 | agent as event-driven machine | invariants over all traces |
| C51 | byte-list arithmetic loops | carry/borrow induction |
| C52 C53 | RLP reader/writer, tx codec | structural induction; over-long fields are undefined behaviour in the code |
| C54 C55 C56 | funds check, host state, finalize | arithmetic modulo 2^256: the funds check itself wraps (negation); partials |
| C57 C58 | the codecs of C01 on arbitrary bytes, with `throws` and `ub` outcomes | per combinator: totality of the plain types, canonical encodings |
| C59 | the transition system of C16, counting applications per batch | invariant "applied once" while no lock request comes late; concrete run otherwise |
| C60 C61 | atomizer with its stored blocks; attestations in notifications | extension of the invariant of C19 |
| C62 | archivers and atomizer with lost messages and pruning | invariant: every gap was asked for; concrete runs for the failures |
| C63 | watchtower following archivers and atomizers | invariant over all deliveries |
| C64 | atomizer sentinel | as C18 |
| C65 C66 C67 | shard of C39 and its replicated state over leader changes | values and locks tied to the list of committed commands; serial order by the position of prepares |
| C68 | broker of C47, counting callbacks | counting invariant |
| C69 | ticket client of C49, queue of callbacks | FIFO invariant |
| C70 C71 | agent of C50 with destructor and runner lifetimes | invariants; concrete runs |
| C72 | client of C31 with the answers of shards and watchtower | composition of those models |
| C73 | seeder and configuration ranges | arithmetic |
| C74 | JSON numbers over the hex model | induction over the text |
| C75 | RPC clients, servers and connections as one transition system | trace invariant, built on C35 |
| C76 | bech32 code | linear algebra over GF(2), kernel-evaluated exhaustive table of syndromes |
| C77 C78 | bytes hashed for signatures and identifiers, signature conversion | injectivity from C52 |
| C79 C80 C81 C83 | host of the virtual machine; evmone is any tree of host calls | induction over the tree |
| C82 | log index and queries over every order of shard answers | permutation argument |
| C84 | `check_options` | decision logic |
| C85 | broker of C47, any number of shards of C39 and the network between them | invariants linking requests, served requests and shard records; each request has a place in the life of its transaction |
| C86 | agents of C49, broker, shards and network of C85 | each agent is in one of five phases, which say what the broker and the shards were asked; composition with C85 |
| C87 | many brokers of C85 with common shards, and the list of decisions | strict two-phase locking: the list of first commit requests is a serial order; every broker's view is a run of C85 |
| C88 | the atomizer system of C19, the transactions of C05-C10 and the sentinels' check of C18 | what is not attested is left out of the run without a change of the chain; a legal list of ids is then a lawful list of transactions over whole coins (induction over the list) |
| C89 | many batches over common shards: each batch is the transition system of C16, a step of the system is a step of one batch (`Coordinator/System.lean`) | every batch sees a run of C16 in which the others are `otherShard`/`otherCmd` steps; a system invariant ties each shard's coins to the executed transactions it has applied, without order; at the recording of an outcome the executed transactions extend the legal list of C88. Only in calm runs; a concrete run for the failure |
| C90 | `tcp_socket::send`/`receive` to the byte, `peer` as far as data goes: any splitting of writes and reads, failures, reconnections (`Net/Model.lean`) | invariant: the stream of a connection is the frames of what was sent on it and a part of the next; framing is injective. The order in time between two connections fails: concrete run |
| C91 | `tcp_socket::receive` on any bytes | the outcome is a function of the bytes (`parse`), by induction over the chunks; concrete bytes for the failure |
| C92 | queues, condition variable and handler thread of `connection_manager` (`Net/Inbox.lean`) | invariants: received = handled + in hand + queued per peer; a waiting packet has the flag set or a notification under way |
| C93 | the same for the handler; `peer` with its send, receive and reconnect thread and the one in `shutdown`, a step per access to shared data (`Net/Shutdown.lean`) | a measure that every own step lowers, and an invariant on what the lines of `close` have brought about, from which some own step is left until the end. Lost wake-ups: concrete runs from which no own step leads on |
| C94 | the calling, executor and execution threads of the coordinator's controller and its one condition variable; a batch has any outcome (`Coordinator/Threads.lean`) | counting: each call is in one place; a measure that every own step lowers, and what the invariants leave when no own step is possible; concrete runs for the failures |
| C95 | the same with the start/stop thread | the same measure; a concrete run to a state without steps |
| C96 | `handle_request` and every handler of `http_server.cpp`, on JSON values; jsoncpp's conversions throw as documented (`Http/Json.lean`, `Http/Answers.lean`, `Http/Handlers.lean`) | a list of the fatal requests, stated on the request; both directions by going through the handlers |
| C97 | the same | each handler answers at most once and says so; ids by computation |
| C98 | the handlers that read accounts, over shards that hold a world of C54-C56 | the form of values and texts is injective (C37, C74); C56 for the next nonce |
| C99 | JSON of transactions, receipts, logs and blocks | field by field; C53 for what is sent |
| C100 | `add_to_bloom` to the bit (`Http/Bloom.lean`) | induction over the entries; a hash for the failure |
| C101 | the thread of an atomizer shard that digests blocks, the archiver client and the archiver at the other end, with lost connections and restarts (`Catchup/Model.lean`) | invariant over all events, from C23 and C25; the height still to be reached is constant under moves of the thread, and the moves left fall |
| C102 | the leader's `server_handler` and `main_handler` over the state machine of C60, the archiver of C25 and the messages between them; broadcasts may be lost (`Catchup/Network.lean`) | invariant: a deferred block waits for one that is deferred, requested or on its way; each arrival lowers a weight |
| C103 | the Lua runner over an arbitrary interpreter (`Parsec/Lua.lean`) | induction over answers; a relation that gives the meaning of a contract without the runner |
| C104 | the files of `state_manager`, one operation at a time, under nodes which vote as raft prescribes (`Raft/State.lean`) | invariant: the file remembers every vote sent; majorities meet |
| C105 | replicas which execute one agreed list and start from its beginning (`LockingShard/Cluster.lean`), any machine, with the shard of C11-C15 as the instance | invariant: a replica is the single object after a part of the list |
| C106 | `put_row`, `mint_initial_accounts` and the start of an agent over the shards of C54-C56, between transactions (`Evm/Mint.lean`) | cases over the answers of the broker, induction over the addresses and over the steps of the system; concrete runs for what is violated |
| C107 | the two files of a client, byte by byte, with what a kill in the middle of a write leaves (`Wallet/Files.lean`) | round trip and truncation of C02, induction over the elements read; concrete clients for what is violated |
| C108 | the parser of configuration files, the environment, and all functions that read options (`Config/File.lean`); what options are to be said with (`Config/FileSpec.lean`) | round trip through the text, injectivity of the names, inversion of the readers; concrete files for what is violated |
| C109 | the arguments of the programs of the programmable system, `read_config`, and what shard, ticket machine and agent take from it (`Config/Args.lean`); what is to be said (`Config/ArgsSpec.lean`) | round trip through the arguments, analysis of the names, inversion of the readers; concrete command lines for what is violated |
| C110 | `client-cli.cpp` on top of the client of C31, the addresses of C38, hexadecimal text of C37, numbers of C108 (`Wallet/Cli.lean`) | composition of these models; induction over later runs for what stays set aside; general equations between runs for what is violated |
| C111 | `thread_pool.cpp` step by step: the mutex, the flags, the queues and the loop of each thread (`Threads/Model.lean`) | invariant over all interleavings (`Threads/Inv.lean`): where each function is, at most one function for each thread; rank of a call of `push`; history bound for the number of threads |
| C112 | `watchtower/client.cpp`, both clients, with the handler of the watchtower that answers them and a network that may lose what is on its way (`Watchtower/Client.lean`) | invariant for one calling thread (where its request or answer is); counting invariant for several threads without losses; every answer is told, in hand or waiting; explicit schedules for what does not hold, and invariants that it stays so |
| C113 | `json_rpc_http_client.cpp`: handles, transfers, callbacks and the destructor, over a libcurl that posts, brings bytes and ends attempts in any order (`Http/Client.lean`) | invariant (`Http/ClientInv.lean`): each call is told or has one transfer on a handle set for it, whose bytes are those of all its attempts; explicit schedules, some of any length, for what does not hold |
| C114 | `CSHA256` (portable version) and `hash_data`: 64 unrolled lines with rotated registers and sixteen overwritten schedule words, the buffer as bytes of which the first ones are meaningful, `memcpy` out of bounds as undefined (`Crypto/Sha256.lean`); the functions that compute identifiers, call by call (`Crypto/TxHash.lean`) | specification from FIPS 180-4 (`Crypto/Sha256Spec.lean`): constants as fractional parts of roots of primes, recursive message schedule, padding as a predicate. Lines against rounds by a rotated view of the registers; `Write` keeps "the object holds the hash value of the whole blocks and the rest in the buffer" (`Crypto/Sha256Lemmas.lean`) |
| C115 | `random_source`: constructor with and without assertions, `operator()`, `random_hash`, `hash_at_index` (`Crypto/Random.lean`) | invariant: the buffer is what is left of the blocks made so far; chain of messages as an inductive predicate; violations by a seed evaluated in the kernel and by an explicit function from one block to the next (`Crypto/RandomProps.lean`) |
| C116 | `sm_command` and header: writers and reader; `state_machine::commit` on bytes with payloads kept raw; `operator<<` of the raw state, `operator>>` of the typed one; `recovery_func`'s reading (`Coordinator/Wire.lean`) | invariant between the log and the raw state (membership = last entry about the batch), stable under reordering; raw state equals the encoding of a typed one, then the round trip of C01 |
| C117 | the pairs of `operator<<`/`operator>>` of 85 message types (transactions, watchtower, atomizer, archiver, sentinels, both kinds of shards, ticket machine, agents, EVM runner, envelopes of the remote calls), writer and reader apart, field by field (`Serial/Catalogue.lean` over the combinators of `Serial/Codec.lean`) | a law for each combinator (`Serial/CodecLemmas.lean`), then one lemma for each message (`Serial/CatalogueLemmas.lean`); the theorems quantify over the whole list |
| C118 | the five serializers in `size_t` arithmetic: `size_serializer`, `buffer_serializer`, `nuraft_serializer`, `ostream_serializer`, `istream_serializer`, and `make_buffer`/`serialized_size`/`from_buffer` (`Serial/Streams.lean`); writers as sequences of writes, readers as arbitrary programs that read, ask for validity, end or throw | induction over the writes with the written prefix; simulation of runs between the readers, a serializer that is invalid stays so; witnesses for what is violated |
| C119 | `state_machine::commit` and `process_request` of the runtime locking shards on bytes, `replicated_shard_client` with its callbacks and assertions (`Parsec/ReplWire.lean`), over the messages of C117 and the replicated shard of C66 | history specification of each ticket (`Parsec/ReplWireSpec.lean`); invariant between history and replicated shard; round trips of C117 |
| C120 | the `main` of the eight programs of the two architectures, what their controllers take from the options and in which order they connect and listen (`Config/Daemons.lean`), over the loader of C84 | what belongs to a component and with whom it talks, said without arguments or controllers (`Config/DaemonsSpec.lean`); case analysis of each program |
| C121 | the programs of C120 side by side: each does one action of its plan after the other, while others start, end, become or stop being leader (`Config/Startup.lean`) | whom a component needs and when it is up (`Config/StartupSpec.lean`); progress by induction on the plan, invariants over all runs for what never happens |
| C122 | the directory of snapshots (names and bytes), `create_snapshot`, `save_logical_snp_obj`, `read_snapshot`, `apply_snapshot` and the constructor, each also cut off by a kill; replicas over one agreed list (`Atomizer/Replicas.lean`) | a single atomizer given the entries (`Atomizer/ReplicasSpec.lean`); an invariant of each replica (every numbered file holds the single atomizer's state, none that is needed is missing) over all runs |
| C123 | `register_fd`, `set_timeout` and `poll` of the epoll handler, over the kernel's table of watched descriptors (`Http/Events.lean`) | what was asked last for a descriptor and the time spent in `poll`, read off the list of events (`Http/EventsProps.lean`); invariants over all lists of events |
| C124 | `server_interface` with its two threads and queues, the result callbacks of the Lua and of the EVM server, any number of the agents of C50 (`Parsec/Serving.lean`) | what clients are told and which agents are kept (`Parsec/ServingSpec.lean`); an invariant for each number (its agent's life is one of C50, and the queues hold it exactly when they should) over all runs |
| C125 | `json_rpc_http_server` and its callbacks, with the part of libmicrohttpd that queues, suspends, sends and closes (`Http/Server.lean`) | the answer that is due to a request, read off the trace (`Http/ServerSpec.lean`: `Due`, `Owes`); each request is in one of five stages at any time (`Http/ServerInv.lean`), over all runs |
| C126 | the broker of C47 (`Parsec/Broker.lean`), with what it records about the keys of each shard | grants, read off the history (`Parsec/BrokerLocksSpec.lean`: `Granted`); every record of a key is a lock that was granted, or names the type of the only request under way (`Parsec/BrokerLocks.lean`), over all runs with one request for each key at a time |
| C127 | the agent of C50 (`Parsec/Agent.lean`), with the locks it remembers | which locks were asked for before and since the last rollback, read off the history (`Parsec/AgentAgain.lean`: `Asked`, `AskedAgain`); the remembered locks are those asked for, of the strongest type; a concrete life for what is violated |
| C128 | the funds check, the message and `finalize` of C54 (`Evm/Host.lean`) | the sum of all balances; as C54, with the gas that is not handed to the virtual machine (`Evm/BaseGas.lean`); a concrete payment for what is violated |
| C129 | the handler, the threads and the destructor of the atomizer sentinel's RPC server, over the queue of C33 (`Sentinel/Server.lean`) | the requests that arrived, read off the history; an invariant over all interleavings, with the history of the queue inside it; continuations constructed for `C129_served_partial`; universal statements and concrete histories for what is violated |
| C130 | `get_row` as a function of what the broker does with each call, and whether before or after it returns (`Parsec/GetRow.lean`) | by cases on the broker |
| C131 | the leader's pool of C20 with the sending of batches, and the state machine of C60 (`Atomizer/Settled.lean`) | the notifications that attest an input, read off the events; an invariant that relates the attestations collected for one transaction and the copies handed over to them; induction over a batch and over the commands up to the next block |
| C132 | the status client and `send_mint_tx` of the two-phase client, as functions of what the servers do and when (`Wallet/TwoPhaseClient.lean`) | the ranges of C36; induction over the clusters, cases on the answer |
| C133 | nothing new: the system of C19 with the leader of C131 (`Atomizer/Payment.lean`) | unspent by the chain and not waiting to be spent; spent since a height, by the chain, by what waits or by the batch before; the invariant of C19 read in the other direction, and a run put together from the steps of the shards, the leader and the log |
| C134 | nothing new: the world of C16 and C17 (`Coordinator/Finish.lean`) | a finite run; finished (a node done, nothing recorded). Further invariants (a prepared batch has a result for each transaction, a shard that applied remembers it until a discard was sent, a discard was sent only when nothing else is recorded), then the run is built stage by stage, shard by shard |
| C135 | nothing new: the world of C16 and C17 and the runs of C134 (`Coordinator/Through.lean`) | payable (attested and its inputs there, at each shard concerned); no earlier payment of the batch spends its inputs. A shard that has not answered has the coins it started with, so the first answer of C16 is about those; then the run of C134 |
| C136 | the answers of the RPC server of a runtime locking shard and the callbacks of its client (`Parsec/ShardAnswers.lean`), over the shard of C45, the log of C66 and the RPC layer of C75 | `says` is what the shard answers; `Logged` are the requests that need the log. By cases over the outcome of replication; C75 for callbacks. Not met when replication fails |
| C137 | the client of sentinels and the dispatch of their servers (`Sentinel/Client.lean`) over the RPC layer of C75; transactions, outcomes and attestations left open | `expects` is what the sentinel's controller says to the request; honest: the sentinel asked, the others may answer anything. Not met for a dishonest one |
| C138 | nothing new: the shard of C39 to C45 (`Parsec/ShardWound.lean`) and the agent of C50 (`Parsec/AgentTicket.lean`) | state and reason of a record through every request; then induction over executions, and the order of the queues (C40), C41 and C44 for the oldest |
| C139 | nothing new: the shard of C39 to C45 (`Parsec/ShardThrough.lean`) | one lock request of the oldest transaction: it is not left waiting (C138), so it was granted (C44); induction over the keys, then the three closing requests |
| C140 | nothing new: the broker of C47 (`Parsec/BrokerReach.lean`) | `Due` are the shards that still have to act, `CutOff` says that one of them cannot be reached; by cases over the loop |
| C141 | the payment contract of `scripts/gen_bytecode.lua` and the wallet of the Lua benchmark (`Parsec/PayContract.lean`) | sums over accounts and runs of payments; induction over runs. Not met for payments to oneself, balances of 2^63 and the last sequence number |
| C142 | `tcp_listener`, `socket_selector` and the loop of `pump`, over what system calls return (`Net/Listen.lean`) | the first usable address by induction over the addresses; invariants over all runs, the steps left until a connection is accepted and until the thread ends |
| C143 | Handlers for counts, indexes, logs, digests and fees (`Http/Queries.lean`) | what each parameter names is shown to be what the handler reads, then field by field; logs by induction over the entries found |

A `_violated` theorem listed with a claim that is `proved` records a neighbouring
expectation which fails; it does not contradict the statement of the claim itself.

## Modelling assumptions per component

* **Serial.** Values are within the ranges of the C++ types; lengths below 2^64. A
  message that makes the standard library throw is the outcome `throws`; a `bool` byte
  above 1 is `ub`.
* **Transactions.** Hash, signature check and key parsing are arbitrary functions.
* **Locking shard, coordinator.** Messages may be lost, repeated and reordered; several
  coordinators may work at once. Raft is one list of commands. The shard's replicated
  copies are one object; C105 derives this from the list of commands.
* **Atomizer.** Raft is one list of commands; leaders' memory is lost at a change of
  leader; shards restart from older databases. `atomizer::insert` is only used in unit
  tests but is modelled. Heights stay below 2^64. Shards ignore the status of LevelDB
  writes; writes are assumed to succeed.
* **Archiver.** Writes are synchronous and succeed; `m_deferred` is lost on restart;
  `max_samples` and the unbounded recursion are not modelled.
* **Watchtower.** Handlers run one after the other.
* **Sentinels.** Remote sentinels answer anything, once per request.
* **Wallet and client.** The keys are one list, the order of sets is not modelled,
  assertions are compiled out, methods run one after the other; seeds (which are not
  saved) are not modelled. A killed program (C107) leaves a beginning of the file it was
  writing; power cuts and full disks are not modelled.
* **Configuration file (C108).** `std::stod` and the environment are those of the platform;
  files that cannot be opened and counts too large for the memory are not modelled; a key
  with bytes that were never written is undefined.
* **Command line (C109).** `std::stod` is that of the platform; what the programs do after they
  have determined where they listen is not part of this model.
* **Commands of the client (C110).** Loading and saving are those of C107; loading of the
  configuration and starting of the network are inputs, as are the answers of the sentinels and
  the text of an amount in dollars (`print_amount`). Messages of the logger are left out.
* **Thread pool (C111).** A call of the queue of a thread is one step (C33); what functions do
  is arbitrary, apart from what they do to the pool. Starting a thread does not fail.
* **Watchtower clients (C112).** What the watchtower answers is a function of the moment at which
  it handles the request; messages are brought whole, in order and at most once (C90), or lost. The
  flag `m_handler_running` is not synchronised, which is undefined; the model gives it the meaning
  it has if reads and writes are single steps. A handler that was not set is not modelled.
* **HTTP client (C113).** The functions of libcurl succeed, and libcurl does with each handle what
  was set on it. `pump` is not called by callbacks. The JSON library is an arbitrary function of
  the bytes; sockets, timers and epoll are not modelled.
* **Hashing (C114).** The portable transformation. The SSE4 and SHA-NI versions, which
  `SHA256AutoDetect` may install after a self-test, are not modelled, nor are the functions for
  double hashes, which the project does not call. The machine is little endian.
* **Random source (C115).** `std::uniform_int_distribution<unsigned char>`, undefined by the
  standard, takes the upper byte of one number (libstdc++). Nothing is claimed about how hard
  SHA-256 is to predict; the violations are about who needs to know what.
* **Coordinator log (C116).** `nuraft::buffer::copy` copies the bytes from the cursor to the end; the
  log hands every replica the bytes that were replicated, in order. Identifiers of batches are not
  reused while the old batch is unfinished (they are random 32-byte values).
* **Messages (C117).** A value fits its C++ type (`valid`): integers within their width, buffers up to
  the limit of the reader, vectors shorter than 2^64, maps and sets without duplicates and in the order
  of iteration, keys of the reader's map compared by value. Enumerations are their numbers. The order
  of evaluation and the overload chosen for each field are read off the source.
* **Serializers (C118).** `nuraft::buffer::alloc` throws from 2^31 bytes on; `put_raw` and `get_raw`
  throw when there is too little room and otherwise move the cursor; a file takes a given number of
  bytes. There is memory for every vector shorter than 2^63 bytes. This closes two simplifications
  of `Serial/Model.lean`: the size computed beforehand, and reading files as if they were buffers.
* **Log of the runtime locking shards (C119).** Every replica is handed the entries in the order of the
  log, with consecutive indexes; NuRaft hands the result of `commit` to the callback of its entry, or
  an exception. A moved-from `buffer` is empty, as with all common libraries.
* **Programs (C120).** A file that cannot be opened reads as an empty one (the assertion on it is not
  compiled); a program is called with its own name as first argument. Log files, threads, the seeding of a
  shard and the parameters of raft are left out. There are fewer than 2^32 components of a kind.
* **Start of a system (C121).** Only the programs of the system listen at its endpoints. Whether a data base
  opens, a port can be used, a cluster gets together, who leads it, and whether the network lets a connection
  through is up to the environment. A program does what a leader does only after the rest of its plan.
  Connections that break later are not modelled: a socket that was added to a connection manager is connected again.
* **Replicas of an atomizer (C122).** NuRaft agrees on one list of entries, lets each replica execute them in order beginning
  after `last_commit_index`, drops entries of a replica only up to a snapshot of its own or one it received, and sends a
  snapshot only to a replica behind it. Its record of a snapshot (`nuraft::snapshot::serialize`) is read back as written and is
  a parameter. `rename` is atomic and a killed process leaves any part of what it was writing. Asserts are taken to hold.
* **Epoll.** `epoll_ctl` fails for the reasons the model names only (added twice, or not there); closing a descriptor removes it;
  `epoll_wait` returns nothing only when its time is over. Edge triggering is not modelled. libcurl removes a descriptor before
  it closes it.
* **Agent server.** Callbacks come only for agents that are still there (`C71_destroyed_violated` says when they do not); the broker answers
  each request of an agent once (C68). Taking a number from a queue and running its agent are two steps, everything an agent does
  under its mutex is one.
* **libmicrohttpd.** `MHD_queue_response` is refused while the body of the request is being received, and if there is a response
  already; a suspended connection is neither timed out nor closed; a callback that returns `MHD_NO` closes the connection and
  nothing of a queued response is sent; a callback that leaves upload data unread is not called with more of it, and its
  connection times out; `MHD_stop_daemon` returns when all connections are closed. Parsing of HTTP is not modelled, parsing of
  the JSON request is a parameter.
* **Sentinel server.** Requests are told apart by a number; the sentinel's answer to a request is any value; joining the threads is
  one step.
* **Answers of a runtime locking shard (C136).** Which alternative of a variant an implicit conversion selects was read off the
  types, not compiled. That an exception in a callback ends the process: the thread that handles packets catches none.
* **Queue.** Every operation under the mutex is one step; any thread may run next.
* **Raft log store.** LevelDB keeps a prefix of the writes since the last synchronous
  one; the encoding of NuRaft entries is exact; the calls are those NuRaft makes
  (`Allowed`); failing writes are not modelled; indexes stay below 2^64.
* **Raft state (C104).** NuRaft votes as raft prescribes, saves before it answers and handles
  one request at a time; it reads back what it wrote. What a process has written stays when
  it ends; after a loss of power the file may have any content it had before, or a part.
* **RPC.** Messages which cannot be decoded are left out. In C35 any reply may arrive at
  any time; in C75 messages are delivered whole, at most once per connection, in any
  order. Request ids are unique for 2^64 calls.
* **Parsec shard.** A lock type is one of the two named values (the code takes any byte);
  callbacks run in unspecified order; values moved from are empty. `Careful` requests
  (no repeated commit, no finish before commit) are assumed where named. In C41 a
  transaction prepared on one shard does not wait on another.
* **Broker, agent, tickets.** Shards answer anything, in any order. Hypotheses `Timely`,
  `Plain`, `Recov`, `Served` are named in the theorems which need them.
* **Broker with shards (C85).** Requests to one shard arrive in order and may be lost;
  answers of success are true, in any order within an attempt; answers to locks are
  arbitrary. A shard is one process that does not fail; no recovery. `Orderly` is what the
  user must keep.
* **Agent server (C86).** Those of C85, except that `Orderly` is proved. An agent's calls
  of the broker are made in order before it is called again; other threads do anything
  in between. Which lock request an answer belongs to and its value are left open.
  Callback numbers of different agents differ; an agent does not fail with its process.
* **Many brokers (C87).** Those of C85 for each broker. Ticket numbers of different brokers
  differ (C49). An answer to a lock request with a value carries one the shard gave for it
  in the same attempt. The list of decisions and the given values are kept only to talk
  about runs. Several users at one broker are those of different tickets.
* **Money (C88).** Fewer than the threshold of listed sentinel keys are dishonest; an honest
  sentinel's signature on something that occurs is on something it signed after
  `check_tx`. No two of the strings hashed in the run (`Hashed`, and the compact
  transactions that occur) collide; no global injectivity. Seeded coins are different and
  not created by a signed transaction (`seeded_new` derives this for the seeder's coins
  from nobody having a key that hashes to zero). Otherwise as for the atomizer (C19).
* **Money (C89).** As C88 for sentinels, hashes and seeds; every id belongs to at least one
  shard, all shards have the same sentinel keys and threshold, batch ids are different.
  The transactions of each batch are fixed from the start but arbitrary.
* **Network (C90-C93).** `write` takes at least one and at most the offered bytes or fails;
  TCP delivers what it took, in order, or stops. Messages are shorter than 2^64. Reading a
  connection that the sender gave up may go on later. File descriptors are not reused
  while a thread still uses them. Condition variables wake a waiting thread when notified,
  or spuriously. Threads that can run do so in the end. The listener and the selector are those of C142.
* **Listener (C142).** A `select` that fails leaves its sets unchanged (POSIX), a descriptor is not reused, the byte written to
  the pipe of the selector stays there until it is read.
* **Coordinator threads (C94, C95).** `notify_one` wakes any one waiting thread. A batch
  comes to an end. `start` is one step; recovery is that of C17. The mutexes of the
  execution threads and of the list of shards are left out: they are held only briefly.
* **EVM.** evmone is any tree of host calls, which calls with a value only if
  `get_balance` covers it. Warm sets and time stamps are left out, assertions are
  compiled out, requests are served one after another, senders are no precompiles. For
  logs the key is its preimage.
* **HTTP (C96-C100).** JSON comes parsed; numbers with a fraction are kept as their whole
  part and whether they have one. The depth limit and duplicate keys of jsoncpp are left
  out. A handler gets its answer from the agent within the call, after any retries. What
  does not fit in memory throws. libmicrohttpd takes the first response to a request.
* **Catching up (C101).** One request to the archiver is one step. A connection which failed
  once fails for ever. Packets are blocks of one chain or do not parse.
* **Lost broadcasts (C102).** One leader and one archiver; requests and answers are not lost
  unless the archiver restarts (`C62_never_repeated_violated`, `C62_pruned_violated` tell what
  happens otherwise).
* **Payment contract (C141).** Lua integers are integers that wrap around at 64 bits, rows are pairs of them; which signatures
  are valid is a parameter. Each call runs by itself (C85). The source text is modelled, not the bytecode.
* **Lua runner (C103).** The interpreter is any function from what it is given to yields,
  results and errors. `lua_isstring`, `lua_tolstring` and `lua_next` are those of the Lua
  5.4 manual. Allocations succeed.
* **Initial accounts (C106).** A start of an agent is one step between transactions. A broker
  which refuses a request does not call the callback too. A reported commit has reached the
  shards (C47).
* **Config, hex, bech32.** Characters are numbers; streams have the semantics of the
  standard for `std::hex` extraction.

## Wrong programs

`seeded/LOG.jsonl` lists edits of the model, made in a scratch copy, which make a claim
false. `failed` names the declarations that stop compiling first; modules which import
these are not built then, so that property theorems further on are not listed.

## Not modelled

The Lua interpreter and the calls of the socket library,
the HTTP server library and the parser of jsoncpp, benchmarking and telemetry code, the command line
tools other than the wallet (C110), the audit log, raft itself (NuRaft) apart from the snapshots of the
atomizer (C122), LevelDB, evmone, secp256k1 and the hash functions other than SHA-256 (C114).

## Findings

Each finding is proved as a theorem of the given name, from a concrete execution of the
model; those without a theorem name were seen while reading.

### Serialization

* A truncated message with `cbdc::buffer` fields throws (`C02_truncation_throws_violated`).
* A message for an unordered set or map which repeats an element is read beyond its
  declared end (`C04_set_overread_violated`).
* A `bool` byte above 1 is undefined behaviour, a variant tag out of range throws, as does
  a buffer length of 2^63 or more (`C57_hostile_bytes_violated`).

### Network

* One `accept` that fails (no descriptors left, connection given up) ends the thread that accepts connections, and the server
  goes on without (`C142_accept_violated`). A `select` that is interrupted by a signal leaves the bit of the pipe set, and the
  thread waits for the pipe until `close` is called (`C142_interrupted_violated`).
* One dishonest sentinel can end those that ask it for an attestation, by answering with an outcome: the client unpacks the answer
  without looking at its kind (`C137_other_kind_violated`).
* Eight bytes 0xff from anyone who can connect end the process: `receive` makes a buffer of
  the announced size before anything of it has come (`C91_alive_violated`).
* `connection_manager::close` and `peer::shutdown` set their flag and notify without the mutex of
  the condition variable. A thread that has just looked at the flag sleeps and is not
  woken (`C93_handler_violated`, `C93_shutdown_violated`).
* After a reconnection a message can overtake an earlier one (`C90_order_violated`).
* Seen: a connection that is reset before it is accepted makes `pump` return, and the
  server stops (`connection_manager.cpp:24-38`); `close` of a socket in one thread while
  another reads it lets the number be reused.

### Two-phase commit

* Aborting a batch which was refused a coin releases that coin although another batch
  holds it: it can be spent twice (`C11_double_spend_violated`, `C12_abort_violated`,
  `C15_unspent_violated`). End to end, with honest sentinels and valid signatures, this
  makes money: a transaction sent twice and a second spend of its input are enough
  (`C89_supply_violated`).
* `check_tx_id` answers yes for aborted transactions (`C15_txid_violated`), so the client
  settles payments which were not made (`C72_aborted_violated`).
* A stale lock request after apply locks the inputs again (`C13_relock_violated`), and
  with a stale apply re-creates outputs which were spent (`C59_twice_violated`). An apply
  after discard ends the process (`C13_reapply_violated`).
* One `apply` for a batch that a shard does not know, late or sent by anybody who can connect,
  is in the raft log for good: every replica ends when it comes to it, after every start
  (`C105_poison_violated`).
* The status of coins and transactions is read from any replica, however far behind: a spent
  coin can be unspent in the next answer (`C105_stale_violated`).
* Recovery in the discard phase contacts no shard and reports an empty outcome
  (`C17_recovered_discard_silent_violated`).
* When all execution threads are busy, the batch is full and a call waits for room, losing
  leadership hangs the coordinator: `stop` joins the calling thread before it notifies it
  (`C95_stop_violated`). Transactions that wait for a batch then are never answered
  (`C94_dropped_violated`). With two calling threads `notify_one` can wake the wrong one
  and everything stops (`C94_two_threads_violated`); the RPC server has one.
* A sentinel threshold above the number of sentinels makes a request loop for ever
  (`C18_threshold_too_high_violated`).
* `cache_set` keeps one item less than its size and evicts by first insertion
  (`C32_capacity_violated`, `C32_recency_violated`).

### Atomizer

* Attestations are counted without checking that the indexes belong to inputs
  (`C20_index_unchecked_violated`); pending transactions are compared by identifier only
  (`C20_id_mixed_violated`).
* `tx_notify_count` is not part of snapshots (`C22_count_lost_violated`).
* A block request of the archiver which is lost is not repeated until a restart
  (`C62_never_repeated_violated`); an archiver prunes blocks which another still needs
  (`C62_pruned_violated`).
* Watchtower: evicting an error loses a newer one with the same identifier
  (`C27_violated`); contradictory answers (`C26_two_answers_violated`); the creator of a
  spent output is told there is no history (`C26_spent_output_violated`); a repeated block
  makes the handler loop for ever (`C63_old_block_violated`).
* The atomizer sentinel indexes the inputs with the variable of the shard loop: inputs go
  to the wrong shards or are read out of bounds (`C28_violated`,
  `C28_out_of_bounds_violated`).
* The leader keeps the first attestation of an input: one with a higher height is inserted
  into a set that has the index, which changes nothing. A payment attested in part before is
  refused as too old although all its coins are attested anew and unspent
  (`C133_stale_violated`).
* A batch of complete transactions is lost when raft does not take it
  (`C131_refused_violated`), and attestations are lost with the leader
  (`C131_leaders_violated`): such a transaction is neither confirmed nor refused. A
  transaction that is attested twice is confirmed and reported as an error
  (`C131_twice_violated`). Seen: errors of a command whose leader is deposed before it is
  executed are told to nobody.
* The RPC server of the sentinel: with `hardware_concurrency` 0 it answers nothing
  (`C129_threads_violated`); its destructor drops the requests that wait
  (`C129_dropped_violated`), may wait for ever if a request arrives meanwhile
  (`C129_destroy_violated`), and destroys the queue before the RPC server whose handler uses
  it (`C129_late_violated`).
* The archiver client of a shard never connects again: a shard which misses a block after
  the connection broke asks for ever and digests nothing more, and does not shut down either
  (`C101_stuck_violated`).
* Seen: `atomizer::insert` reads out of bounds for a transaction without inputs and an old
  height; `check_stxo_cache` does not end at height 2^64-1; an error of insert leaves the
  entry pending; after a refusal by another sentinel the client is told "pending".

### Wallet and client

* A shard cluster that cannot be reached when a two-phase client starts keeps the clusters
  after it from ever being asked (`C132_start_violated`); a minting request answered after
  five seconds uses a destroyed promise, and the minted coins are not in the wallet's report
  (`C132_late_violated`).
* Confirming a transaction made elsewhere with the same key leaves the output in the
  queue: it is spent again and the balance wraps (`C30_violated`).
* When values sum to 2^64 or more an affordable payment is refused (`C29_overflow`).
* Only one output per transaction can be imported (`C31_dropped_violated`); a repeated
  notification credits a spent output (`C31_twice_violated`).
* After one rejected payment the atomizer client settles no later one in that call
  (`C72_atomizer_violated`).
* The client writes its two files in place, the pending payments first. Killed between them
  while a payment is abandoned or confirmed, it loses the inputs or the change
  (`C107_abandon_violated`, `C107_confirm_violated`). Killed while it writes the wallet, it
  starts with the keys and outputs written so far and reports nothing
  (`C107_wallet_violated`). Killed while it writes the pending payments, it does not start
  again (`C107_client_violated`). Killed between the two saves of `send`, it has money set
  aside for a payment that is not on record (`C107_draft_violated`).
* Seen: `send_to` with amount 0 makes a transaction without inputs.

### Configuration

* Settings that are not understood are not reported. A number with spaces around the equals
  sign, in quotes or with a decimal point is ignored (`C108_ignored_violated`), so is a rate
  without one (`C108_rate_violated`). Ports, ranges and timeouts that are too large are cut
  (`C108_cut_violated`). A remark with an equals sign ends the program, an empty variable of
  the environment is read out of bounds (`C108_remark_violated`). With the line ends of
  Windows the private key of a sentinel is written beyond its end
  (`C108_windows_violated`).
* On the command line of the programmable system the number of a node follows that of its
  shard without anything between them. With more than ten nodes and eleven shards two nodes
  have the same name, and one of them listens at the place of the other
  (`C109_names_violated`, `C109_clash_violated`). Values with two dashes in a row, which
  international host names have, or with an equals sign are refused (`C109_host_violated`).
  Unknown names and levels are ignored, and the default level is not the documented one
  (`C109_ignored_violated`). Numbers that are none end the program with an exception
  (`C109_number_violated`). A shard without the number of its node reads an absent value
  (`C109_node_violated`). The replication of a node is one port above its own, which can be
  the port of another node, or 0 (`C109_ports_violated`).
* Wallet program: amounts are cut to 32 bits and read up to the first character that is no digit,
  so `send 4294967297` pays 1 and, where balances are shown in dollars, `send 12.34` pays 12
  cents (`C110_amount_violated`). If the sentinel does not answer, the program says that it could
  not make a payment, but it is made and pending, and what the recipient needs is not printed
  (`C110_silent_violated`). A refused payment returns 0, and no command gives back what it was to
  spend (`C110_stuck_violated`). Unknown commands and short command lines return 0
  (`C110_unknown_violated`); `importinput` and `confirmtx` without an argument read outside the
  list, and `confirmtx` with a long one writes outside an array (`C110_missing_violated`).
* Thread pool: the destructor throws away functions that were given and not begun
  (`C111_dropped_violated`). It holds the mutex while it waits for the threads, so a function
  that waits in `push` waits for ever, and the destructor with it (`C111_stuck_violated`). If the
  last owner of the pool is one of its own functions, the thread joins itself and the process is
  ended (`C111_self_violated`), as it is by a function that throws (`C111_throws_violated`).
* Watchtower clients: answers carry nothing that says which request they belong to, so two threads
  that use one blocking client may be given each other's answers (`C112_swapped_violated`); a call
  whose request or answer is lost waits for ever (`C112_lost_violated`); a client whose `init`
  failed, which `atomizer_client` ignores, waits for ever and ends the process when destroyed
  (`C112_unreachable_violated`); the destructor of an idle `async_client` waits for ever
  (`C112_destructor_violated`).
* JSON-RPC client over HTTP: an attempt that fails or times out is repeated for ever on the same
  endpoint, without a word to the callback (`C113_retried_violated`), so the server may carry it
  out more than once; what it brought stays before the reply (`C113_mixed_violated`). Calls made
  one after the other all go to the first endpoint (`C113_spread_violated`). A callback that
  calls again when the client is destroyed is undefined (`C113_recall_violated`), as is a client
  without endpoints (`C113_empty_violated`).
* Random source: `hash_at_index` writes the counter to the member and finalizes it, without a copy
  or a reset, so that the documented SHA-256 of seed and counter is given only for the first block
  (`C115_counter_violated`). Each later block is one application of the compression function to
  the block before it and public bytes: eight numbers in a row, from a multiple of eight on, give
  all later ones away (`C115_predictable_violated`). The callers of today publish at most every
  fourth byte (`C115_hash`), so this is a weakness and not an open door. With `NDEBUG`, as in
  release builds, a missing or short file goes unnoticed and private keys come from a seed of zero
  bytes (`C115_unseeded_violated`, `C115_short_violated`).
* Coordinator log: `state_machine.hpp` says a batch should be in one phase at a time, but `commit`
  checks for a duplicate identifier only among the prepared batches; reusing one in the commit phase
  puts it in two phases and keeps the old outcome (`C116_reused`). `recovery_func` does not look at
  the outcome of reading the state; C116 shows that the read cannot fail.
* Messages: of the 85 types only `evm_account` does not carry all of its fields; the modified keys and
  the mark of destruction are lost on the way (`C117_account`). Both are set and read within one run of
  the runner, before the account is written, so nothing depends on them today.
* Serializers: writing or reading no bytes at the end of a buffer evaluates `&m_data[size]`, an index
  outside the vector (`C118_subscript_violated`): harmless with common libraries, the end of the
  process with `_GLIBCXX_ASSERTIONS`. The answer of a shard for a key without a value is such a
  message. After a failure `buffer_serializer` goes on reading where it was, `istream_serializer` does
  not, so that refused bytes can throw from one and not from the other (`C118_same_end_violated`).
* **Numbers of components (C120).** `watchtowerd` does not check its number, and reads outside the options
  (`C120_watchtower_violated`); `sentineld_2pc` with a configuration of the atomizer architecture computes
  `sentinel_id % 0` (`C120_architecture_violated`); a node of a coordinator or locking shard refuses to start if any other
  cluster of its kind has fewer nodes (`C120_clusters_violated`); `0x1`, `-0` and the like are not what
  the user may expect (`C120_number_violated`); without arguments most programs end with status 0 (`C120_usage_violated`).
* **Start of a system (C121).** In the atomizer architecture each sentinel connects to all others before it
  listens, and ends if one of them does not answer. With two sentinels none of them ever listens, in whatever
  order and however often they are started (`C121_sentinels_violated`). The archiver client of a shard
  connects once: a shard started before the archiver never gets the blocks it missed, and its handler of blocks
  loops for ever (`C121_archiver_violated`). Atomizers and shards stop connecting to watchtowers at the first one that does
  not answer (`C121_watchtowers_violated`).
* **Snapshots of an atomizer (C122).** The start of an atomizer reads every name in its directory of snapshots as a number, so
  that any other file (`lost+found` where the directory is a mount point) throws out of the constructor at every start
  (`C122_stray_violated`). A snapshot is renamed without `fsync`; if the computer goes down and the file has lost its end, the
  process exits at every start and neither an older snapshot nor the log is tried (`C122_power_violated`).

### HTTP server

* The answer "Server is shutting down" is queued and the callback then returns `MHD_NO`, so nobody ever receives it
  (`C125_shutdown_violated`).
* A request with another method than `POST` that has a body gets no answer at all, as its data is never taken
  (`C125_upload_violated`); without a body it is refused as intended.
* A callback that is called after its request is over uses freed memory (`C125_twice_violated`): the second call, or any call
  after the handler returned false. No guard exists; the handlers of the EVM server are well behaved.
* The destructor waits for the application for as long as it owes an answer (`C125_hang_violated`), and is undefined when `init`
  failed, as it stops a daemon that is null (`C125_init_violated`).
* `eth_feeHistory` reads the number of blocks with `std::stoull` in base 10, so that one in hex, as clients send it, is zero and the
  client gets the fees of no block (`C143_fee_violated`). For a number in decimal, the oldest block is reported one too low
  (`C143_oldest_violated`).
* Not covered, as found by mutation: no theorem says that `access_list_to_json` reports the storage keys, or what
  `eth_sendTransaction` and `eth_call` make of the fields of their JSON (`txFromJson`, `dryrunTxFromJson`). C143 and the fields
  added to `C99_block_partial` were written after wrong programs survived; these were not run again against them.

### Agent servers

* `exec_tx` puts an agent on the cleanup queue only after a success: the EVM server keeps the agent of every request that fails, with
  its transaction, until the process ends (`C124_leak_violated`, `C124_memory_violated`). Anyone can send such requests.
* The Lua server does put it there, and its destructor ends the process if the agent did not finish
  (`C124_lives_violated`, as in `C70_violated`). The EVM server is spared this by its leak (`C124_lives`).

### Event loop of the HTTP client

* The timer starts anew with every call of `poll` and is looked at only if nothing else happened, so that events which keep coming
  put it off for ever (`C123_starved_violated`). libcurl looks at its own timers on every event, which hides this.
* A time of 2^32 milliseconds is cast to an `int` 0: `poll` never sleeps and never reports it (`C123_long_violated`).
* 0 does not switch the timer off as the interface says; a timer nobody set is reported after a second
  (`C123_zero_violated`).
* A signal that interrupts the wait makes `poll` fail, and `pump` of the client with it (`C123_signal_violated`).

### Parsec

* **Whoever pays themself makes money.** The payment contract (`scripts/gen_bytecode.lua:46-55`) writes the row of the payee
  after that of the payer. If both are the same the deduction and the new sequence number are lost: the balance grows by the
  value (`C141_mint_violated`), and the same signed payment is accepted again (`C141_replay_violated`). Balances are compared
  as signed numbers, so an account with 2^63 or more cannot pay (`C141_stuck_violated`), and after sequence number 2^63 - 1
  all earlier ones are accepted again (`C141_sequence_violated`).
* A broker ends when a shard fails to replicate a command. The server says `internal_error`, which becomes an answer to
  `get_tickets`, or says nothing; the client accepts neither (`C136_failed_violated`). A commit of a ticket that the shard does
  not have (any more) is enough (`C136_commit_violated`).
* An agent forgets locks: when the request for one of the locks it acquires again cannot be sent, those whose turn had not come
  are dropped, and the next attempt starts without them (`C127_violated`).
* A broker records one type for a key. If two requests for it are under way, the answer to the first, for reading, makes it believe
  that it holds the lock for writing, and it says so to the next request without asking the shard (`C126_violated`). Agents
  wait for each answer, so that this takes a user of its own (`C126_held_partial`).
* Rollback of a committed transaction succeeds and forgets it (`C45_rollback_violated`); a
  repeated first lock request ends the shard's process (`C45_exit_violated`).
* A repeated commit wipes the values, also those of later transactions
  (`C46_commit_violated`, `C46_later_write_violated`, `C66_repeated_commit_violated`);
  finishing a prepared ticket drops its record (`C66_early_finish_violated`); read locks
  of prepared tickets are lost at a change of leader (`C67_commit_order_violated`).
* Broker: a late answer lets it commit on a shard which has not prepared
  (`C47_late_answer_violated`); the commit callback runs once per refusing shard
  (`C68_twice_violated`) and never without locks (`C68_never_violated`); recovery races
  with a commit on its way (`C48_race_violated`).
* Tickets: after a lost answer the client waits for ever (`C69_stuck_violated`).
* Agent: the server destroys the agent after errors and the destructor ends the process
  (`C70_violated`, `C70_committed_violated`); `exec` while the function is fetched fails an
  assertion (`C50_exec_violated`); a committed run may be reported as a finish error
  (`C50_error_after_commit`); a late lock answer reaches a destroyed runner
  (`C71_destroyed_violated`).
* A commit after a failed rollback can take effect on one shard only
  (`C85_order_violated`); a commit retried with other values after an error writes the
  first values on some shards and the second on others and reports success
  (`C85_mixed_violated`).
* A Lua contract that returns a list, such as `return {"x"}`, ends the agent process: the
  key 1 is turned into a string in place, which `lua_next` does not find
  (`C103_abort_violated`). With the string `"1.5"` before the number 1.5 among the keys, the
  runner never stops (`C103_loop_violated`).
* Seen: byte code is loaded unchecked and with all libraries, `os` and `io` among them; a
  contract may run for ever; `lua_error` leaves `check_sig` past a live `std::vector`; an
  error that is not a string is logged as a null pointer.
* Seen: a commit retried in state `prepared` sends commit again and thus triggers the
  wiping above; `m_recovery_tickets` is not cleared; the callback of recovery may run
  several times; a rollback to a shard which does not know the ticket fails for ever.
* `get_row` waits for ever when `try_lock` returns false (`C130_blocks_violated`); its
  callbacks refer to variables of functions that have returned (`C130_dangling_violated`); it
  calls its callback twice (`C130_twice_violated`), leaves tickets behind
  (`C130_left_violated`) and reports every error of a lock as an unreachable shard
  (`C130_error_violated`).

### EVM

* Gas price times limit wraps modulo 2^256: money is made (`C54_mint_violated`).
* `gasUsed` in a receipt leaves out the base gas, which is paid (`C128_receipt_violated`).
* Storage, code and logs of a reverted execution are kept (`C55_storage_violated`);
  failures other than revert keep everything (`C55_failure_violated`).
* CREATE does not advance the creator's nonce: the next creation replaces the code
  (`C80_replaced_violated`).
* The agent's process ends after `eth_call` with a value from an account that does not
  exist (`C81_dry_run_violated`), when a destroyed contract is called twice
  (`C81_destroyed_violated`), and when a lock is refused in a nested transfer
  (`C81_wounded_violated`).
* Value sent to a precompile address writes a key that is not locked, so the commit can
  never succeed (`C83_precompile_violated`).
* Log queries: accepted ones which are never answered (`C82_unanswered_violated`), never
  end (`C82_endless_violated`), ask for 2^64 keys (`C82_huge_violated`), overflow
  (`C82_undefined_violated`), or return entries twice (`C82_twice_violated`).
* RLP: over-long fields write before the buffer (`C52_field_violated`), an array as input
  is read from an empty buffer (`C52_input_violated`), malformed transactions throw
  (`C52_string_violated`, `C52_access_violated`), and a short text asks for any amount of
  memory (`C52_memory_violated`). Trailing bytes and non-canonical encodings are accepted.
* Every start of agent 0 writes the 256 initial accounts again, with a nonce of zero: money
  is made (`C106_money_violated`), what these accounts received is lost (`C106_serves`) and
  their transactions can be executed again (`C106_replay_violated`). If one request is never
  answered it waits for ever (`C106_waits_violated`). `put_row` does not roll back after an
  error, so its lock stays.
* One signed transaction has several identifiers (`C78_identifier_violated`).
* Over HTTP one request ends the process: a body which is not an object, an address of one
  character, the flag of a block as text, a number of blocks which is none; the code of a
  long address is copied out of bounds (`C96_violated`; all such requests are listed by
  `Deadly`, among them the transaction after the last of a block).
* Ids of requests which are not numbers are lost, and some requests get two responses
  (`C97_id_violated`). `eth_getCode` puts the length before the code (`C98_code_violated`),
  reads that must give way are not repeated (`C98_wounded_violated`), receipts always say
  "success" (`C99_success_violated`), a block whose lock is refused looks empty
  (`C99_empty_violated`), and the filter for logs has its bytes swapped
  (`C100_violated`).
* Seen: type-2 transactions pay no gas; nested reverts are not undone; precompiles are not
  implemented; some queries invoke the callback twice (`impl.cpp:105-107`); the gas limit
  is cut to 64 bits; an agent whose execution failed is never removed (`exec_tx`); fee
  history reads "0x4" as 0 blocks.

### Text, configuration, storage, queue

* `from_hex` accepts "1g", " 1", "+1", "-1" (`C37_nonhex_violated`); the empty text does
  not round-trip (`C37_empty_violated`); `hash_from_hex` writes beyond the hash
  (`C37_hash_violated`).
* Numbers of a JSON transaction with fewer than 64 digits are read as 0
  (`C74_quantity_violated`); a short argument ends the process (`C74_argument_violated`).
* Addresses: no data reads an empty vector (`C38_empty_violated`), two addresses for one
  key (`C38_two_addresses_violated`).
* More seed generators than seeds each get the whole range (`C36_too_many_violated`);
  shard ranges are not checked (`C36_unchecked_violated`); the seeder ignores `seed_from`
  and the ranges (`C73_offset_violated`, `C73_ranges_violated`); the threshold is not
  compared with the number of sentinels in atomizer mode (`C84_threshold_violated`).
* Raft log: a compacted and emptied log forgets its index at a restart
  (`C34_restart_violated`) or an empty pack (`C34_empty_pack_violated`); entries not
  flushed are lost on power failure (`C34_power_violated`).
* Raft state: `save_object` synchronises nothing: after a loss of power a node votes again in
  the same term, and two leaders can be elected (`C104_power_violated`). It ignores errors of
  writing: on a full disk the good file is replaced by an empty one and the node does not
  start again (`C104_full_violated`).
* Queue: `clear` can leave a sleeper (`C33_clear_violated`), so `peer::close` can hang.
* RPC: a lost reply leaves a caller without timeout waiting (`C35_lost`,
  `C35_unanswered`). Seen: `send_to_one` uses the random generator under a shared lock.
