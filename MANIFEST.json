{
 "claims": [
  {
   "property": "C01",
   "status": "proved",
   "theorems": [
    "Verif.Serial.C01_roundtrip",
    "Verif.Serial.C01_roundtrip_buffer",
    "Verif.Serial.C01_injective"
   ],
   "note": "All wire types of format.hpp as one inductive family; values within the ranges of the C++ types."
  },
  {
   "property": "C02",
   "status": "partial",
   "theorems": [
    "Verif.Serial.C02_truncated_rejected_partial",
    "Verif.Serial.C02_truncated_fails_plain",
    "Verif.Serial.C02_truncation_throws_violated"
   ],
   "note": "No truncated message yields a value (all types); failure is reported for types without bool/optional/variant/buffer. Contradicted for messages with cbdc::buffer: a truncated agent request throws."
  },
  {
   "property": "C03",
   "status": "proved",
   "theorems": [
    "Verif.Tx.C03_full_tx_roundtrip",
    "Verif.Tx.C03_compact_tx_roundtrip",
    "Verif.Tx.C03_full_tx_injective",
    "Verif.Tx.C03_compact_tx_injective"
   ],
   "note": "Sizes below 2^64; the attestation map is a list of bindings with distinct keys."
  },
  {
   "property": "C04",
   "status": "partial",
   "theorems": [
    "Verif.Serial.C04_set_overread_violated",
    "Verif.Serial.C04_set_decode_partial",
    "Verif.Serial.C04_set_decode_no_repetition",
    "Verif.Serial.C04_map_decode_partial",
    "Verif.Serial.C04_map_decode_no_repetition"
   ],
   "note": "Contradicted when the message repeats an element (overread). Proved: result is duplicate free, has the announced size and consists of what was read; exact consumption when the message has no repetition."
  },
  {
   "property": "C05",
   "status": "proved",
   "theorems": [
    "Verif.Tx.C05_id_commits",
    "Verif.Tx.C05_id_ignores_witness"
   ],
   "note": "No-collision hypothesis only about the two preimages."
  },
  {
   "property": "C06",
   "status": "proved",
   "theorems": [
    "Verif.Tx.C06_spend_matches_create",
    "Verif.Tx.C06_every_output_spendable",
    "Verif.Tx.C06_uhs_id_unique"
   ],
   "note": "No-collision hypothesis only about the two preimages."
  },
  {
   "property": "C07",
   "status": "proved",
   "theorems": [
    "Verif.Tx.C07_conservation"
   ],
   "note": "64-bit arithmetic modelled with UInt64."
  },
  {
   "property": "C08",
   "status": "proved",
   "theorems": [
    "Verif.Tx.C08_accepts_iff",
    "Verif.Tx.C08_no_ub",
    "Verif.Tx.C08_error_truthful"
   ],
   "note": "Arbitrary hash and signature functions."
  },
  {
   "property": "C09",
   "status": "proved",
   "theorems": [
    "Verif.Tx.C09_authorised"
   ],
   "note": ""
  },
  {
   "property": "C10",
   "status": "proved",
   "theorems": [
    "Verif.Tx.C10_threshold",
    "Verif.Tx.C10_signed_message_commits",
    "Verif.Tx.C10_message_ignores_attestations"
   ],
   "note": ""
  },
  {
   "property": "C100",
   "status": "partial",
   "theorems": [
    "Verif.Http.C100_bits_partial",
    "Verif.Http.C100_found_partial",
    "Verif.Http.C100_violated"
   ],
   "note": "The filter holds exactly the bits of the addresses and topics, but with the bytes of each pair in the other order than Ethereum, so that clients which follow Ethereum miss logs (C100_violated)."
  },
  {
   "property": "C101",
   "status": "partial",
   "theorems": [
    "Verif.Catchup.C101_agrees",
    "Verif.Catchup.C101_grows",
    "Verif.Catchup.C101_current",
    "Verif.Catchup.C101_waits",
    "Verif.Catchup.C101_returns_partial",
    "Verif.Catchup.C101_stuck_violated"
   ],
   "note": "Agreement with the chain and the height reached are proved without restriction. That the shard catches up is proved while the connection to the archiver holds; it fails after the connection was lost once, because the client never connects again."
  },
  {
   "property": "C102",
   "status": "proved",
   "theorems": [
    "Verif.Catchup.C102_complete",
    "Verif.Catchup.C102_last",
    "Verif.Catchup.C102_same",
    "Verif.Catchup.C102_answered",
    "Verif.Catchup.C102_settles"
   ],
   "note": "One leader, one archiver, requests and answers not lost; C62 tells what happens otherwise. Fewer than 2^64 blocks."
  },
  {
   "property": "C103",
   "status": "partial",
   "theorems": [
    "Verif.Parsec.Lua.C103_once",
    "Verif.Parsec.Lua.C103_means_partial",
    "Verif.Parsec.Lua.C103_deterministic",
    "Verif.Parsec.Lua.C103_lock_fails",
    "Verif.Parsec.Lua.C103_table",
    "Verif.Parsec.Lua.C103_abort_violated",
    "Verif.Parsec.Lua.C103_loop_violated",
    "Verif.Parsec.Lua.C103_check_sig"
   ],
   "note": "Missing: tables with numbers as keys, for which the last sentence is false: a number as a key ends the agent process, or keeps it busy for ever."
  },
  {
   "property": "C104",
   "status": "partial",
   "theorems": [
    "Verif.Raft.State.C104_atomic",
    "Verif.Raft.State.C104_vote_once_partial",
    "Verif.Raft.State.C104_one_leader_partial",
    "Verif.Raft.State.C104_starts_partial",
    "Verif.Raft.State.C104_cluster",
    "Verif.Raft.State.C104_power_violated",
    "Verif.Raft.State.C104_full_violated"
   ],
   "note": "Missing: loss of power and full disks, for which it is false, since nothing is synchronised and errors of writing are ignored."
  },
  {
   "property": "C105",
   "status": "partial",
   "theorems": [
    "Verif.LockingShard.Cluster.C105_replies",
    "Verif.LockingShard.Cluster.C105_agree",
    "Verif.LockingShard.Cluster.C105_reads",
    "Verif.LockingShard.Cluster.C105_catches_up",
    "Verif.LockingShard.Cluster.C105_poison",
    "Verif.LockingShard.Cluster.C105_shard",
    "Verif.LockingShard.Cluster.C105_poison_violated",
    "Verif.LockingShard.Cluster.C105_stale_violated"
   ],
   "note": "Answers about status are those of some earlier moment and may go back in time (stale_violated). One apply for an unknown batch stops all replicas for good (poison_violated)."
  },
  {
   "property": "C106",
   "status": "partial",
   "theorems": [
    "Verif.Evm.C106_put_row",
    "Verif.Evm.C106_serves",
    "Verif.Evm.C106_only",
    "Verif.Evm.C106_others",
    "Verif.Evm.C106_ends_partial",
    "Verif.Evm.C106_supply",
    "Verif.Evm.C106_row",
    "Verif.Evm.C106_replay_partial",
    "Verif.Evm.C106_replay_violated",
    "Verif.Evm.C106_money_violated",
    "Verif.Evm.C106_waits_violated"
   ],
   "note": "the first start gives exactly the initial supply; a second start of agent 0 writes the initial accounts again, so money is made and their transactions can be executed again (violated); it waits for ever if a request is not answered"
  },
  {
   "property": "C107",
   "status": "partial",
   "theorems": [
    "Verif.Wallet.C107_saved",
    "Verif.Wallet.C107_client_cut",
    "Verif.Wallet.C107_wallet_cut",
    "Verif.Wallet.C107_between_partial",
    "Verif.Wallet.C107_nothing_new",
    "Verif.Wallet.C107_abandon_violated",
    "Verif.Wallet.C107_confirm_violated",
    "Verif.Wallet.C107_wallet_violated",
    "Verif.Wallet.C107_client_violated",
    "Verif.Wallet.C107_draft_violated"
   ],
   "note": "A completed save is loaded in full; a client killed anywhere never believes to have money or keys it did not have; killed between the two files of an operation that settles no payment it loses nothing. The rest is false in the code: killed between the files when a payment is abandoned or confirmed it loses the money (C107_abandon_violated, C107_confirm_violated); killed while it writes the wallet it loses keys and money without an error; killed while it writes the client file it does not start again; killed between the two saves of send the money is set aside for a payment which is not on record."
  },
  {
   "property": "C108",
   "status": "partial",
   "theorems": [
    "Verif.Config.C108_names",
    "Verif.Config.C108_read",
    "Verif.Config.C108_file",
    "Verif.Config.C108_describe",
    "Verif.Config.C108_given",
    "Verif.Config.C108_missing",
    "Verif.Config.C108_accepted",
    "Verif.Config.C108_shipped",
    "Verif.Config.C108_ignored_violated",
    "Verif.Config.C108_rate_violated",
    "Verif.Config.C108_cut_violated",
    "Verif.Config.C108_remark_violated",
    "Verif.Config.C108_windows_violated"
   ],
   "note": "Proved: names are distinct, described options are read back with the environment taking precedence, all options can be described, nothing without default is made up, a missing required setting is reported, and acceptance is exactly readable and usable. Violated: settings that are not understood are not reported; they are ignored, cut, end the program, or overflow a key."
  },
  {
   "property": "C109",
   "status": "partial",
   "theorems": [
    "Verif.Config.Args.C109_read",
    "Verif.Config.Args.C109_missing",
    "Verif.Config.Args.C109_given",
    "Verif.Config.Args.C109_names_partial",
    "Verif.Config.Args.C109_describe_partial",
    "Verif.Config.Args.C109_names_violated",
    "Verif.Config.Args.C109_clash_violated",
    "Verif.Config.Args.C109_host_violated",
    "Verif.Config.Args.C109_role",
    "Verif.Config.Args.C109_ports_partial",
    "Verif.Config.Args.C109_ports_violated",
    "Verif.Config.Args.C109_script",
    "Verif.Config.Args.C109_node_violated",
    "Verif.Config.Args.C109_ignored_violated",
    "Verif.Config.Args.C109_number_violated"
   ],
   "note": "Arguments that describe a configuration are read as it, and a missing one is reported. Violated: two nodes of different shards can have the same name, values with two dashes or an equals sign are refused, unknown names and levels are ignored, numbers that are none throw, a shard without a node number reads an absent value, and the replication port of a node can be the port of another."
  },
  {
   "property": "C11",
   "status": "partial",
   "theorems": [
    "Verif.LockingShard.C11_spent_once_partial",
    "Verif.LockingShard.C11_double_spend_violated"
   ],
   "note": "The code violates the property: aborting a refused transaction releases an input held by another batch, which can then be spent twice (C11_double_spend_violated). The partial theorem proves single spending for every history without such an abort."
  },
  {
   "property": "C110",
   "status": "partial",
   "theorems": [
    "Verif.Wallet.Cli.C110_send",
    "Verif.Wallet.Cli.C110_fan",
    "Verif.Wallet.Cli.C110_mint",
    "Verif.Wallet.Cli.C110_newaddress",
    "Verif.Wallet.Cli.C110_payment",
    "Verif.Wallet.Cli.C110_refused",
    "Verif.Wallet.Cli.C110_failed_partial",
    "Verif.Wallet.Cli.C110_amount_violated",
    "Verif.Wallet.Cli.C110_unknown_violated",
    "Verif.Wallet.Cli.C110_missing_violated",
    "Verif.Wallet.Cli.C110_silent_violated",
    "Verif.Wallet.Cli.C110_stuck_violated"
   ],
   "note": "Well-typed commands do what they say, and a payment can be carried out with the commands alone. Violated: amounts are cut to 32 bits and read up to the first character that is no digit; unknown commands return 0; missing arguments are read out of bounds; a silent sentinel leaves a pending payment that is reported as impossible; a refused payment returns 0 and its inputs cannot be freed with any command."
  },
  {
   "property": "C111",
   "status": "partial",
   "theorems": [
    "Verif.Threads.C111_once",
    "Verif.Threads.C111_all",
    "Verif.Threads.C111_starts",
    "Verif.Threads.C111_prompt",
    "Verif.Threads.C111_push",
    "Verif.Threads.C111_threads",
    "Verif.Threads.C111_closed",
    "Verif.Threads.C111_closes_partial",
    "Verif.Threads.C111_dropped_violated",
    "Verif.Threads.C111_stuck_violated",
    "Verif.Threads.C111_self_violated",
    "Verif.Threads.C111_throws_violated"
   ],
   "note": "Proved for a pool that is not destroyed. Violated: the destructor throws away functions that were given and not begun; it never returns if a running function waits in push; it ends the process if it is called in a function of the pool; a function that throws ends the process."
  },
  {
   "property": "C112",
   "status": "partial",
   "theorems": [
    "Verif.Watchtower.Client.C112_own_partial",
    "Verif.Watchtower.Client.C112_returns_partial",
    "Verif.Watchtower.Client.C112_told",
    "Verif.Watchtower.Client.C112_ends_partial",
    "Verif.Watchtower.Client.C112_swapped_violated",
    "Verif.Watchtower.Client.C112_lost_violated",
    "Verif.Watchtower.Client.C112_unreachable_violated",
    "Verif.Watchtower.Client.C112_destructor_violated"
   ],
   "note": "Proved: if one thread uses the blocking client every call that returns returns the answer to its own request, whatever is lost; if nothing is lost every call of every thread can return; the asynchronous client hands each answer to the handlers once and in order, and its destructor can end whenever its thread does not wait for an answer. Does not hold: two threads may be given each other's answers or std::bad_variant_access; a call whose request or answer is lost never returns; a client whose init failed (which the wallet program ignores) never answers and ends the process when destroyed; the destructor of an idle asynchronous client never ends. Not modelled: the data race on m_handler_running, handlers that are not set."
  },
  {
   "property": "C113",
   "status": "partial",
   "theorems": [
    "Verif.Http.Client.C113_once",
    "Verif.Http.Client.C113_posted",
    "Verif.Http.Client.C113_value",
    "Verif.Http.Client.C113_reply_partial",
    "Verif.Http.Client.C113_closed",
    "Verif.Http.Client.C113_defined_partial",
    "Verif.Http.Client.C113_retried_violated",
    "Verif.Http.Client.C113_mixed_violated",
    "Verif.Http.Client.C113_spread_violated",
    "Verif.Http.Client.C113_recall_violated",
    "Verif.Http.Client.C113_empty_violated"
   ],
   "note": "Proved: no callback is called twice; what is posted for a call is what it was made with, to an endpoint; a callback is called with what the JSON library makes of all that came back for this call, or nothing for a code that is not 2xx; that is the reply if failed attempts brought no bytes; the destructor tells all that wait; nothing undefined is done if there are endpoints and callbacks do not call in the destructor. Does not hold: failed attempts (also timeouts) are repeated for ever on the same endpoint without telling the callback; bytes of failed attempts are kept before the reply; sequential calls all go to the first endpoint; a callback that calls again in the destructor, and a client without endpoints, are undefined. Not modelled: failures of libcurl's functions, event handlers."
  },
  {
   "property": "C114",
   "status": "proved",
   "theorems": [
    "Verif.Sha256.C114_sha256",
    "Verif.Sha256.C114_reset",
    "Verif.Sha256.C114_again",
    "Verif.Sha256.C114_hash_data",
    "Verif.Sha256.C114_unique",
    "Verif.Sha256.C114_identifiers"
   ],
   "note": "Model of the portable CSHA256 (unrolled transformation with rotated registers, Write, Finalize, Reset, hash_data) against a specification written from FIPS 180-4, whose constants are defined as fractional parts of roots of primes. C114_sha256: any division into calls, any contents of the uninitialised buffer, memcpy never out of bounds. C114_unique: the specification leaves one digest. C114_again: what a second use without Reset computes. C114_identifiers: the identifiers of the transaction model are the ones the code computes with this class. Not modelled: the SSE4 and SHA-NI transformations that SHA256AutoDetect may install."
  },
  {
   "property": "C115",
   "status": "partial",
   "theorems": [
    "Verif.Sha256.C115_stream",
    "Verif.Sha256.C115_counter_partial",
    "Verif.Sha256.C115_hash",
    "Verif.Sha256.C115_seeded",
    "Verif.Sha256.C115_counter_violated",
    "Verif.Sha256.C115_predictable_violated",
    "Verif.Sha256.C115_unseeded_violated",
    "Verif.Sha256.C115_short_violated"
   ],
   "note": "Proved: the bytes given out are those of a chain of SHA-256 blocks, in order, each once; the first block is the SHA-256 of the seed and 0; builds with assertions end the constructor only with a 32-byte seed. Violated: later blocks are not the SHA-256 of the seed and the counter, since hash_at_index finalizes the member without copying or resetting it (concrete seed); each block follows from the one before by one application of the compression function to public bytes; release builds start from zero bytes if the file is missing or short. Missing: the documented rule for blocks after the first, which the code does not follow; that SHA-256 is hard to predict is outside any such model."
  },
  {
   "property": "C116",
   "status": "proved",
   "theorems": [
    "Verif.Coordinator.Wire.C116_recovered",
    "Verif.Coordinator.Wire.C116_written",
    "Verif.Coordinator.Wire.C116_checked",
    "Verif.Coordinator.Wire.C116_executed",
    "Verif.Coordinator.Wire.C116_reused"
   ],
   "note": "Bytes of commands, state and answer are modelled, writers and readers separately. NuRaft replication itself and nuraft::buffer::copy (copies from the cursor on) are assumed. C116_reused shows why identifiers must not be reused."
  },
  {
   "property": "C117",
   "status": "proved",
   "theorems": [
    "Verif.Serial.Cat.C117_roundtrip",
    "Verif.Serial.Cat.C117_injective",
    "Verif.Serial.Cat.C117_stream",
    "Verif.Serial.Cat.C117_envelope",
    "Verif.Serial.Cat.C117_account"
   ],
   "note": "Writers and readers are modelled separately for 85 message types. evm_account is the one type that does not carry all of its fields; C117_account says what arrives."
  },
  {
   "property": "C118",
   "status": "partial",
   "theorems": [
    "Verif.Serial.Streams.C118_size",
    "Verif.Serial.Streams.C118_buffer_partial",
    "Verif.Serial.Streams.C118_nuraft",
    "Verif.Serial.Streams.C118_file",
    "Verif.Serial.Streams.C118_readers",
    "Verif.Serial.Streams.C118_inside_partial",
    "Verif.Serial.Streams.C118_subscript_violated",
    "Verif.Serial.Streams.C118_same_end_violated"
   ],
   "note": "Missing: an empty last write or a read of no bytes at the end takes the address behind the last element with operator[] (C118_subscript_violated), and refused bytes can end differently for a buffer and a file (C118_same_end_violated)."
  },
  {
   "property": "C119",
   "status": "proved",
   "theorems": [
    "Verif.Parsec.Wire.C119_told",
    "Verif.Parsec.Wire.C119_recovered",
    "Verif.Parsec.Wire.C119_unreadable",
    "Verif.Parsec.Wire.C119_entry"
   ],
   "note": "The bytes are those of C117; the replicated shard is the one of C66 and C67, to which C119_recovered connects. Values moved from are empty."
  },
  {
   "property": "C12",
   "status": "partial",
   "theorems": [
    "Verif.LockingShard.C12_disjoint",
    "Verif.LockingShard.C12_locked_iff_held",
    "Verif.LockingShard.C12_abort_restores_partial",
    "Verif.LockingShard.C12_abort_violated"
   ],
   "note": "Disjointness is proved for every history in which no id is created twice. Abort restores exactly the inputs it held only under the assumption of C11; the violation is proved."
  },
  {
   "property": "C120",
   "status": "partial",
   "theorems": [
    "Verif.Config.Daemon.C120_named",
    "Verif.Config.Daemon.C120_starts_partial",
    "Verif.Config.Daemon.C120_refused_partial",
    "Verif.Config.Daemon.C120_inside_partial",
    "Verif.Config.Daemon.C120_watchtower_violated",
    "Verif.Config.Daemon.C120_architecture_violated",
    "Verif.Config.Daemon.C120_clusters_violated",
    "Verif.Config.Daemon.C120_number_violated",
    "Verif.Config.Daemon.C120_usage_violated"
   ],
   "note": "Proved in full that a running program is the component named. Partial: a watchtower whose number is not configured reads outside the options, a two-phase sentinel given an atomizer configuration divides by zero, a node of a cluster does not start if another cluster of its kind is smaller, stoull accepts other spellings of a number, and most programs end with status 0 if arguments are missing; each with a witness."
  },
  {
   "property": "C121",
   "status": "partial",
   "theorems": [
    "Verif.Config.Daemon.C121_up_partial",
    "Verif.Config.Daemon.C121_order_partial",
    "Verif.Config.Daemon.C121_sentinels_violated",
    "Verif.Config.Daemon.C121_archiver_violated",
    "Verif.Config.Daemon.C121_watchtowers_violated"
   ],
   "note": "Proved for all configurations with one sentinel endpoint in the atomizer architecture. Violated: with two sentinels in that architecture no sentinel ever listens, in any run; a shard that starts before the archiver never connects to it; an atomizer that starts while the first watchtower is down never connects to any watchtower."
  },
  {
   "property": "C122",
   "status": "partial",
   "theorems": [
    "Verif.Atomizer.Replicas.C122_is",
    "Verif.Atomizer.Replicas.C122_replies",
    "Verif.Atomizer.Replicas.C122_agree",
    "Verif.Atomizer.Replicas.C122_starts_partial",
    "Verif.Atomizer.Replicas.C122_catches_up_partial",
    "Verif.Atomizer.Replicas.C122_transfer",
    "Verif.Atomizer.Replicas.C122_stray_violated",
    "Verif.Atomizer.Replicas.C122_power_violated"
   ],
   "note": "For processes killed at any moment all is proved. A file whose name is no number ends every start (C122_stray_violated); nothing is forced to the disk before a snapshot is named, so that the newest file may be cut short when the computer goes down, which ends every start although older snapshots or the log would do (C122_power_violated). NuRaft is assumed: one agreed list, entries dropped only up to a snapshot, its record read back as written."
  },
  {
   "property": "C123",
   "status": "partial",
   "theorems": [
    "Verif.Http.Events.C123_watched",
    "Verif.Http.Events.C123_events",
    "Verif.Http.Events.C123_failures",
    "Verif.Http.Events.C123_timer",
    "Verif.Http.Events.C123_fires_partial",
    "Verif.Http.Events.C123_starved_violated",
    "Verif.Http.Events.C123_long_violated",
    "Verif.Http.Events.C123_zero_violated",
    "Verif.Http.Events.C123_signal_violated"
   ],
   "note": "Everything except that a timer is reported as soon as its time is over: it is reported only by a call of poll in which nothing happens for longer than the whole time (C123_fires_partial), so events that keep coming put it off for ever (C123_starved_violated), and a time beyond an int is never reported (C123_long_violated). 0 does not switch it off as the interface says, and one that nobody set is reported after a second (C123_zero_violated); a signal makes poll fail (C123_signal_violated). EPOLLET is not modelled."
  },
  {
   "property": "C124",
   "status": "partial",
   "theorems": [
    "Verif.Parsec.Serving.C124_once",
    "Verif.Parsec.Serving.C124_own",
    "Verif.Parsec.Serving.C124_never_lost",
    "Verif.Parsec.Serving.C124_order",
    "Verif.Parsec.Serving.C124_lives",
    "Verif.Parsec.Serving.C124_forgets_partial",
    "Verif.Parsec.Serving.C124_leak_violated",
    "Verif.Parsec.Serving.C124_memory_violated",
    "Verif.Parsec.Serving.C124_lives_violated"
   ],
   "note": "Everything but the last sentence holds for both servers. The EVM server keeps the agent of every request that failed for ever, so that its memory has no bound (C124_leak_violated, C124_memory_violated; C124_forgets_partial says exactly which agents are kept); the Lua server destroys them, which ends the process if the agent did not finish (C124_lives_violated; C124_lives says that nothing else does)."
  },
  {
   "property": "C125",
   "status": "partial",
   "theorems": [
    "Verif.Http.Server.C125_right",
    "Verif.Http.Server.C125_once",
    "Verif.Http.Server.C125_ready",
    "Verif.Http.Server.C125_drains",
    "Verif.Http.Server.C125_safe_partial",
    "Verif.Http.Server.C125_twice_violated",
    "Verif.Http.Server.C125_hang_violated",
    "Verif.Http.Server.C125_shutdown_violated",
    "Verif.Http.Server.C125_upload_violated",
    "Verif.Http.Server.C125_init_violated"
   ],
   "note": "The response is the one due, there is at most one, and a request received in full can be answered unless the application owes the answer. Violated: a shutting down server closes connections without the 503 it queued; other methods with a body are never answered; late or repeated calls of a callback use freed memory (safe for applications that call each callback once: C125_safe_partial); the destructor waits for an application that never answers (it ends otherwise: C125_drains) and is undefined after a failed init."
  },
  {
   "property": "C126",
   "status": "partial",
   "theorems": [
    "Verif.Parsec.Broker.C126_answer",
    "Verif.Parsec.Broker.C126_asked",
    "Verif.Parsec.Broker.C126_held_partial",
    "Verif.Parsec.Broker.C126_violated"
   ],
   "note": "Holds for users that make one request for each key of a ticket at a time, as agents do. Violated with two requests for one key under way: the answer to the one for reading is recorded as a lock for writing."
  },
  {
   "property": "C127",
   "status": "partial",
   "theorems": [
    "Verif.Parsec.Agent.C127_again_partial",
    "Verif.Parsec.Agent.C127_only_partial",
    "Verif.Parsec.Agent.C127_violated"
   ],
   "note": "Proved for lives of an agent in which the broker takes all requests for locks. Violated otherwise: when the request for one remembered lock cannot be sent, those whose turn had not come are forgotten, and the next attempt starts its runner without them (C127_violated). Model of the agent: that of C50 and C71. Every event is a separate step: a callback that the broker calls before the request returns is not modelled."
  },
  {
   "property": "C128",
   "status": "partial",
   "theorems": [
    "Verif.Evm.C128_refused",
    "Verif.Evm.C128_paid_partial",
    "Verif.Evm.C128_receipt_violated"
   ],
   "note": "Refusal proved in full. Payment proved under the assumptions of C54_total_partial (no wrap of price times limit, the virtual machine leaves no more gas than it was given, the sender is not a precompile address). Violated: gasUsed of the receipt leaves out the base gas, although it is paid (C128_receipt_violated)."
  },
  {
   "property": "C129",
   "status": "partial",
   "theorems": [
    "Verif.Sentinel.Server.C129_once",
    "Verif.Sentinel.Server.C129_kept",
    "Verif.Sentinel.Server.C129_served_partial",
    "Verif.Sentinel.Server.C129_defined",
    "Verif.Sentinel.Server.C129_threads_violated",
    "Verif.Sentinel.Server.C129_dropped_violated",
    "Verif.Sentinel.Server.C129_destroy_violated",
    "Verif.Sentinel.Server.C129_late_violated"
   ],
   "note": "Each request is answered at most once and with an answer of its kind in every history; until destruction none is lost, none is overtaken in the queue, no thread ends, and from every state the threads can answer all requests. That they do is left to the scheduler. Violated: with hardware_concurrency 0 nothing is answered; requests waiting at destruction are never answered; a request that arrives during destruction may leave the destructor waiting for ever; one that arrives after it uses a destroyed queue."
  },
  {
   "property": "C13",
   "status": "partial",
   "theorems": [
    "Verif.LockingShard.C13_lock_again_partial",
    "Verif.LockingShard.C13_apply_again_partial",
    "Verif.LockingShard.C13_discard_again",
    "Verif.LockingShard.C13_relock_violated",
    "Verif.LockingShard.C13_reapply_violated"
   ],
   "note": "Idempotence proved for re-delivery within the life of the batch, with any requests in between. A stale lock after apply locks the inputs again, a stale apply after discard ends the process: both proved as violations."
  },
  {
   "property": "C130",
   "status": "partial",
   "theorems": [
    "Verif.Parsec.GetRow.C130_value_partial",
    "Verif.Parsec.GetRow.C130_local",
    "Verif.Parsec.GetRow.C130_blocks_violated",
    "Verif.Parsec.GetRow.C130_dangling_violated",
    "Verif.Parsec.GetRow.C130_twice_violated",
    "Verif.Parsec.GetRow.C130_left_violated",
    "Verif.Parsec.GetRow.C130_error_violated"
   ],
   "note": "What get_row returns is what the callback is told first, a value is that of the shard, and with answers within the calls behaviour is defined. Violated: it waits for ever when try_lock returns false; its behaviour is undefined when the value comes after try_lock has returned; the callback may be called twice; a ticket that is refused a lock or a commit is left; every error of the lock is told as shard_unreachable."
  },
  {
   "property": "C131",
   "status": "partial",
   "theorems": [
    "Verif.Atomizer.Settled.C131_handed_partial",
    "Verif.Atomizer.Settled.C131_times",
    "Verif.Atomizer.Settled.C131_settled",
    "Verif.Atomizer.Settled.C131_refused_violated",
    "Verif.Atomizer.Settled.C131_leaders_violated",
    "Verif.Atomizer.Settled.C131_twice_violated"
   ],
   "note": "Proved: notifications that attest every input at one leader make it hand the transaction over if raft takes its commands; never more often than each input was attested; every transaction of an executed command is in the next block or reported as an error. Violated: a command that raft refuses is lost; attestations collected by one leader are unknown to the next; a transaction attested twice is both confirmed and reported as an error."
  },
  {
   "property": "C132",
   "status": "partial",
   "theorems": [
    "Verif.Wallet.TwoPhaseClient.C132_told",
    "Verif.Wallet.TwoPhaseClient.C132_answer_partial",
    "Verif.Wallet.TwoPhaseClient.C132_nobody",
    "Verif.Wallet.TwoPhaseClient.C132_mint",
    "Verif.Wallet.TwoPhaseClient.C132_start_violated",
    "Verif.Wallet.TwoPhaseClient.C132_late_violated"
   ],
   "note": "Nothing but what a responsible shard says is told; the exact answer if all clusters could be connected to. send_mint_tx is exact within five seconds. Violated: a cluster that cannot be reached at the start keeps the following ones from ever being asked; an answer to a minting request after five seconds uses a destroyed promise."
  },
  {
   "property": "C133",
   "status": "proved",
   "theorems": [
    "Verif.Atomizer.Payment.C133_attested",
    "Verif.Atomizer.Payment.C133_missing",
    "Verif.Atomizer.Payment.C133_refused",
    "Verif.Atomizer.Payment.C133_confirmed",
    "Verif.Atomizer.Payment.C133_through",
    "Verif.Atomizer.Payment.C133_stale_violated"
   ],
   "note": "The four parts of the statement over the system of C19. C133_stale_violated shows why the leader must hold nothing about the payment: it keeps the first attestation of an input, so a payment attested in part before is refused although all its coins are attested anew and unspent."
  },
  {
   "property": "C134",
   "status": "proved",
   "theorems": [
    "Verif.Coordinator.Finish.C134_finish"
   ],
   "note": "From every reachable world in which a node holds the batch unrecorded, or it is recorded, with the shards up, there is a run to a world in which a node is done with the batch and the replicated state is rid of it. That such a run exists is what is proved, not that the scheduler takes it; that a finished batch is applied everywhere is C16 and C17."
  },
  {
   "property": "C135",
   "status": "proved",
   "theorems": [
    "Verif.Coordinator.Through.C135_outcome",
    "Verif.Coordinator.Through.C135_through"
   ],
   "note": "Outcome: over every run of the batch from its start with no other work on the shards. Through: a run exists from every start with the shards up; the run is one of the batch alone, hence also one among other batches. Payments of which an earlier one of the batch spends an input are C16_executed_iff_granted."
  },
  {
   "property": "C136",
   "status": "partial",
   "theorems": [
    "Verif.Parsec.Told.C136_told_partial",
    "Verif.Parsec.Told.C136_failed_violated",
    "Verif.Parsec.Told.C136_callback_partial",
    "Verif.Parsec.Told.C136_executed_partial",
    "Verif.Parsec.Told.C136_commit_violated",
    "Verif.Parsec.Told.C136_only_commit"
   ],
   "note": "Proved when the request needs no replication or is replicated and executed without an error, and through the RPC layer for every callback. Not met otherwise: internal_error is sent as an answer to get_tickets, and a handler that returns false is answered with no value; both end the broker (C136_failed_violated for all such cases, C136_commit_violated for a commit of a ticket that is not recorded)."
  },
  {
   "property": "C137",
   "status": "partial",
   "theorems": [
    "Verif.Sentinel.Client.C137_callback_partial",
    "Verif.Sentinel.Client.C137_returned_partial",
    "Verif.Sentinel.Client.C137_other_kind_violated"
   ],
   "note": "Proved for clients of a sentinel that answers by its code, whatever the other servers do. Not met for a dishonest sentinel: an answer of the other kind makes std::get throw, which ends the process of a sentinel that asked for an attestation (C137_other_kind_violated, for every transaction)."
  },
  {
   "property": "C138",
   "status": "proved",
   "theorems": [
    "Verif.Parsec.C138_wounded",
    "Verif.Parsec.C138_reason",
    "Verif.Parsec.C138_oldest_safe",
    "Verif.Parsec.C138_oldest_waits",
    "Verif.Parsec.C138_oldest_goes_on",
    "Verif.Parsec.Agent.C138_one_ticket"
   ],
   "note": "One shard and all requests; and an agent that runs its transaction again keeps its ticket, so it does not become younger."
  },
  {
   "property": "C139",
   "status": "proved",
   "theorems": [
    "Verif.Parsec.C139_through"
   ],
   "note": "One shard, requests of the transaction not interleaved with those of others; a prepared transaction in the way makes it wait (C138_oldest_waits)."
  },
  {
   "property": "C14",
   "status": "proved",
   "theorems": [
    "Verif.LockingShard.C14_lock_decision"
   ],
   "note": ""
  },
  {
   "property": "C140",
   "status": "proved",
   "theorems": [
    "Verif.Parsec.Broker.C140_commit",
    "Verif.Parsec.Broker.C140_rollback",
    "Verif.Parsec.Broker.C140_finish",
    "Verif.Parsec.Broker.C140_prepared"
   ],
   "note": "Calls of the user; in recovery the callback of recover is called instead. Shards that answer while the request is made are not covered."
  },
  {
   "property": "C141",
   "status": "partial",
   "theorems": [
    "Verif.Parsec.Contract.C141_accepted",
    "Verif.Parsec.Contract.C141_moves_partial",
    "Verif.Parsec.Contract.C141_supply_partial",
    "Verif.Parsec.Contract.C141_once_partial",
    "Verif.Parsec.Contract.C141_wallet",
    "Verif.Parsec.Contract.C141_mint_violated",
    "Verif.Parsec.Contract.C141_replay_violated",
    "Verif.Parsec.Contract.C141_stuck_violated",
    "Verif.Parsec.Contract.C141_sequence_violated"
   ],
   "note": "A payment to oneself adds its value to the balance and can be repeated (C141_mint_violated, C141_replay_violated); an account with 2^63 or more cannot pay (C141_stuck_violated); after sequence number 2^63 - 1 old payments are accepted again (C141_sequence_violated). Signatures are a parameter; the contract is modelled, not its bytecode."
  },
  {
   "property": "C142",
   "status": "partial",
   "theorems": [
    "Verif.Net.Listen.C142_listen",
    "Verif.Net.Listen.C142_order",
    "Verif.Net.Listen.C142_accepted_partial",
    "Verif.Net.Listen.C142_close",
    "Verif.Net.Listen.C142_accept_violated",
    "Verif.Net.Listen.C142_interrupted_violated"
   ],
   "note": "One accept that fails ends the accepting thread (C142_accept_violated); after an interrupted select no connection is accepted until close (C142_interrupted_violated). Threads that can run do so in the end."
  },
  {
   "property": "C143",
   "status": "partial",
   "theorems": [
    "Verif.Http.C143_count",
    "Verif.Http.C143_index",
    "Verif.Http.C143_logs",
    "Verif.Http.C143_decode",
    "Verif.Http.C143_sha3",
    "Verif.Http.C143_fee_partial",
    "Verif.Http.C143_fee_violated",
    "Verif.Http.C143_oldest_violated"
   ],
   "note": "A count of blocks for the fee history in hex is read as zero, and the oldest block is one too low; what the agent finds for a log query is C82."
  },
  {
   "property": "C15",
   "status": "partial",
   "theorems": [
    "Verif.LockingShard.C15_unspent_partial",
    "Verif.LockingShard.C15_unspent_violated",
    "Verif.LockingShard.C15_txid_cache",
    "Verif.LockingShard.C15_txid_partial",
    "Verif.LockingShard.C15_txid_violated"
   ],
   "note": "The transaction query also answers yes for aborted transactions, and the unspent query for coins released by a foreign abort; both violations proved, with the exact contents proved as the partial part."
  },
  {
   "property": "C16",
   "status": "proved",
   "theorems": [
    "Verif.Coordinator.C16_all_or_nothing",
    "Verif.Coordinator.C16_executed_iff_granted",
    "Verif.Coordinator.C16_granted_means"
   ],
   "note": "Transition system of coordinators (crashing, recovering, several at once) over the modelled shards and a duplicating, reordering network. Granting by a shard that only owns outputs still requires attestations."
  },
  {
   "property": "C17",
   "status": "proved",
   "theorems": [
    "Verif.Coordinator.C17_one_decision",
    "Verif.Coordinator.C17_same_outcome",
    "Verif.Coordinator.C17_history_grows",
    "Verif.Coordinator.C17_never_lost",
    "Verif.Coordinator.C17_recovered_discard_silent_violated"
   ],
   "note": "Finding: recovery in the discard phase contacts no shard and reports an empty outcome."
  },
  {
   "property": "C18",
   "status": "proved",
   "theorems": [
    "Verif.Sentinel.TwoPhase.C18_status",
    "Verif.Sentinel.TwoPhase.C18_forwarded",
    "Verif.Sentinel.TwoPhase.C18_once",
    "Verif.Sentinel.TwoPhase.C18_attests_valid",
    "Verif.Sentinel.TwoPhase.C18_threshold_too_high_violated",
    "Verif.Coordinator.C18_reported_executed",
    "Verif.Coordinator.C18_every_caller_answered"
   ],
   "note": "At-most-once reply rests on the RPC client calling a callback once. Finding: a threshold above the number of sentinels makes the request loop for ever."
  },
  {
   "property": "C19",
   "status": "proved",
   "theorems": [
    "Verif.Atomizer.C19_legal",
    "Verif.Atomizer.C19_no_double_spend"
   ],
   "note": "Transition system of the raft-replicated atomizer, its leaders' memory and all shards; messages delayed, repeated, reordered or lost, leaders and shards restarting (shards possibly from an older database). Assumes honest shard code (modelled), transaction ids that commit to the inputs and outputs, and fewer than 2^64 blocks."
  },
  {
   "property": "C20",
   "status": "partial",
   "theorems": [
    "Verif.Atomizer.C20_attested_partial",
    "Verif.Atomizer.C20_block_contents",
    "Verif.Atomizer.C20_once",
    "Verif.Atomizer.C20_index_unchecked_violated",
    "Verif.Atomizer.C20_id_mixed_violated"
   ],
   "note": "Proved when every notification comes from a modelled shard. Missing: with arbitrary notifications the claim is false, because the atomizer counts attestation indexes without checking that they refer to inputs, and merges entries that only share an id (both shown by concrete runs)."
  },
  {
   "property": "C21",
   "status": "proved",
   "theorems": [
    "Verif.Atomizer.C21_blocks",
    "Verif.Atomizer.C21_insert_complete"
   ],
   "note": "Observations are block contents, heights and the pending count."
  },
  {
   "property": "C22",
   "status": "proved",
   "theorems": [
    "Verif.Atomizer.C22_snapshot",
    "Verif.Atomizer.C22_count_lost_violated"
   ],
   "note": "Byte-exact snapshot file; sizes below 2^64 assumed. The diagnostic counter tx_notify_count is not in the snapshot (second theorem); no answer depends on it."
  },
  {
   "property": "C23",
   "status": "proved",
   "theorems": [
    "Verif.Atomizer.C23_state",
    "Verif.Atomizer.C23_accept",
    "Verif.Atomizer.C23_snapshot",
    "Verif.Atomizer.C23_snapshot_held"
   ],
   "note": "Assumes LevelDB batches are atomic and succeed (the code ignores the write status)."
  },
  {
   "property": "C24",
   "status": "proved",
   "theorems": [
    "Verif.Atomizer.C24_attests",
    "Verif.Atomizer.C24_reports",
    "Verif.Atomizer.C24_refuses"
   ],
   "note": ""
  },
  {
   "property": "C25",
   "status": "proved",
   "theorems": [
    "Verif.Archiver.C25_chain",
    "Verif.Archiver.C25_permanent",
    "Verif.Archiver.C25_complete"
   ],
   "note": "for every sequence of blocks and restarts; block bytes are the wire format of the serialization model; database writes assumed to succeed"
  },
  {
   "property": "C26",
   "status": "partial",
   "theorems": [
    "Verif.Watchtower.C26_block_cache",
    "Verif.Watchtower.C26_best",
    "Verif.Watchtower.C26_answers_partial",
    "Verif.Watchtower.C26_spent_output_violated",
    "Verif.Watchtower.C26_two_answers_violated"
   ],
   "note": "cache lookups proved equal to a search of the last k blocks for every history without double spends; status answers exact for transactions without cached error; false otherwise (two answers; creator of a spent output is told 'no history')"
  },
  {
   "property": "C27",
   "status": "partial",
   "theorems": [
    "Verif.Watchtower.C27_sound",
    "Verif.Watchtower.C27_found_partial",
    "Verif.Watchtower.C27_distinct_partial",
    "Verif.Watchtower.C27_answers",
    "Verif.Watchtower.C27_repeated",
    "Verif.Watchtower.C27_violated"
   ],
   "note": "soundness for all histories; completeness holds unless an error with the same id was still cached at the push (counterexample otherwise)"
  },
  {
   "property": "C28",
   "status": "partial",
   "theorems": [
    "Verif.Sentinel.Atomizer.C28_partial",
    "Verif.Sentinel.Atomizer.C28_violated",
    "Verif.Sentinel.Atomizer.C28_out_of_bounds_violated"
   ],
   "note": "false in the code, which indexes the inputs with the shard loop variable; holds when no shard range splits the inputs and there are at least as many inputs as shards"
  },
  {
   "property": "C29",
   "status": "proved",
   "theorems": [
    "Verif.Wallet.C29_refused",
    "Verif.Wallet.C29_pays",
    "Verif.Wallet.C29_fan",
    "Verif.Wallet.C29_accepted",
    "Verif.Wallet.C29_fan_accepted",
    "Verif.Wallet.C29_counts",
    "Verif.Wallet.C29_overflow"
   ],
   "note": "For a wallet in any state satisfying the representation invariant (kept by every history, History.inv) whose total holdings are below 2^64: exact conservation, refusal without change, and acceptance by transaction validation. C29_overflow shows that the bound is needed: when sums wrap an affordable payment is refused."
  },
  {
   "property": "C30",
   "status": "partial",
   "theorems": [
    "Verif.Wallet.C30_balance_partial",
    "Verif.Wallet.C30_violated"
   ],
   "note": "Holds for histories in which a confirmed transaction spends nothing the wallet still holds. C30_violated: confirming a transaction made elsewhere with the same key leaves the output in the spending queue; the assertion fails, and without assertions it is spent again and the balance wraps."
  },
  {
   "property": "C31",
   "status": "partial",
   "theorems": [
    "Verif.Wallet.C31_create",
    "Verif.Wallet.C31_abandon",
    "Verif.Wallet.C31_abandon_unknown",
    "Verif.Wallet.C31_confirm",
    "Verif.Wallet.C31_once",
    "Verif.Wallet.C31_received_partial",
    "Verif.Wallet.C31_ignored",
    "Verif.Wallet.C31_dropped_violated",
    "Verif.Wallet.C31_twice_violated"
   ],
   "note": "Abandoning and confirming: exact effect on the outputs held and set aside, for every history without clashing output hashes. Notifications: proved for one output per transaction; C31_dropped_violated shows that a second output of the same transaction is dropped, C31_twice_violated that a repeated notification credits a spent output."
  },
  {
   "property": "C32",
   "status": "partial",
   "theorems": [
    "Verif.Util.C32_new_iff_absent",
    "Verif.Util.C32_bounded",
    "Verif.Util.C32_contents_partial",
    "Verif.Util.C32_added_present",
    "Verif.Util.C32_capacity_violated",
    "Verif.Util.C32_recency_violated"
   ],
   "note": "The set keeps max_size-1 items, not max_size, and evicts by first insertion; exact contents proved, both deviations proved as violations."
  },
  {
   "property": "C33",
   "status": "partial",
   "theorems": [
    "Verif.Queue.C33_fifo",
    "Verif.Queue.C33_subsequence",
    "Verif.Queue.C33_exactly_once",
    "Verif.Queue.C33_priority",
    "Verif.Queue.C33_asleep",
    "Verif.Queue.C33_woken",
    "Verif.Queue.C33_enter",
    "Verif.Queue.C33_clear_partial",
    "Verif.Queue.C33_clear_violated"
   ],
   "note": "Order, exactly-once and no stranded consumer proved for every interleaving. \"clear wakes everyone\" is false if something is pushed and popped between clear and the moment a sleeper takes the mutex; proved when nothing is pushed after clear."
  },
  {
   "property": "C34",
   "status": "partial",
   "theorems": [
    "Verif.Raft.C34_contents_partial",
    "Verif.Raft.C34_no_crash",
    "Verif.Raft.C34_monotone",
    "Verif.Raft.C34_pack",
    "Verif.Raft.C34_flushed",
    "Verif.Raft.C34_restart_violated",
    "Verif.Raft.C34_empty_pack_violated",
    "Verif.Raft.C34_power_violated"
   ],
   "note": "Proved for every permitted history except those in which an emptied, compacted log is restarted or given an empty pack: there the store forgets its index, shown by counterexamples. Appended entries not yet flushed are lost when the machine fails."
  },
  {
   "property": "C35",
   "status": "proved",
   "theorems": [
    "Verif.Rpc.C35_once",
    "Verif.Rpc.C35_no_crash",
    "Verif.Rpc.C35_callback",
    "Verif.Rpc.C35_returned",
    "Verif.Rpc.C35_distinct",
    "Verif.Rpc.C35_unknown",
    "Verif.Rpc.C35_repeated",
    "Verif.Rpc.C35_delivered",
    "Verif.Rpc.C35_not_sent",
    "Verif.Rpc.C35_unanswered",
    "Verif.Rpc.C35_lost"
   ],
   "note": "Calls, replies, timeouts and failed sends interleaved freely; uniqueness of ids for the first 2^64 calls of a client. C35_unanswered and C35_lost describe the limit: without a reply nothing wakes a caller that gave no timeout."
  },
  {
   "property": "C36",
   "status": "partial",
   "theorems": [
    "Verif.Config.C36_within_partial",
    "Verif.Config.C36_contiguous_partial",
    "Verif.Config.C36_disjoint_partial",
    "Verif.Config.C36_cover_partial",
    "Verif.Config.C36_owner",
    "Verif.Config.C36_partition",
    "Verif.Config.C36_too_many_violated",
    "Verif.Config.C36_unchecked_violated"
   ],
   "note": "Seed ranges: proved for every configuration with at most as many generators as seeds; with more, each generator is given the whole size_t range. Shard ranges: proved for ranges that tile 0..255; check_options does not look at them."
  },
  {
   "property": "C37",
   "status": "partial",
   "theorems": [
    "Verif.Hex.C37_round_trip",
    "Verif.Hex.C37_text",
    "Verif.Hex.C37_prefixed",
    "Verif.Hex.C37_reject",
    "Verif.Hex.C37_decode",
    "Verif.Hex.C37_canonical",
    "Verif.Hex.C37_hash",
    "Verif.Hex.C37_reject_partial",
    "Verif.Hex.C37_nonhex_violated",
    "Verif.Hex.C37_empty_violated",
    "Verif.Hex.C37_hash_violated"
   ],
   "note": "Round trip proved for 1 to 51200 bytes; hex text is decoded to its value. False parts: text with other characters (\"1g\", \" 1\", \"-1\") is accepted, empty bytes do not round-trip, hash_from_hex writes outside the hash for text longer than 64 characters."
  },
  {
   "property": "C38",
   "status": "partial",
   "theorems": [
    "Verif.Bech32.C38_round_trip",
    "Verif.Bech32.C38_address_round_trip",
    "Verif.Bech32.C38_decode_encode",
    "Verif.Bech32.C38_decode_injective",
    "Verif.Bech32.C38_mistyped",
    "Verif.Bech32.C38_undefined",
    "Verif.Bech32.C38_accepted_partial",
    "Verif.Bech32.C38_unique_partial",
    "Verif.Bech32.C38_empty_violated",
    "Verif.Bech32.C38_two_addresses_violated"
   ],
   "note": "Round trips and rejection of single mistyped characters proved. The claim that different addresses never yield the same key is false of the code (C38_two_addresses_violated: the result of ConvertBits is ignored), and an address without data reads an empty vector (C38_empty_violated). What holds instead is C38_accepted_partial and C38_unique_partial."
  },
  {
   "property": "C39",
   "status": "proved",
   "theorems": [
    "Verif.Parsec.C39_exclusion"
   ],
   "note": "all histories from a fresh or recovered shard; the lock type is one of the two named values (a raw byte in the code)"
  },
  {
   "property": "C40",
   "status": "proved",
   "theorems": [
    "Verif.Parsec.C40_agree",
    "Verif.Parsec.C40_idle",
    "Verif.Parsec.C40_ordered"
   ],
   "note": ""
  },
  {
   "property": "C41",
   "status": "proved",
   "theorems": [
    "Verif.Parsec.C41_order",
    "Verif.Parsec.C41_prepared_idle",
    "Verif.Parsec.C41_no_deadlock",
    "Verif.Parsec.C41_progress",
    "Verif.Parsec.C41_progress_one"
   ],
   "note": "any family of shards; across shards it is assumed that a transaction prepared on one shard does not wait on another (the broker prepares only when all locks are granted)"
  },
  {
   "property": "C42",
   "status": "proved",
   "theorems": [
    "Verif.Parsec.C42_prepared_safe"
   ],
   "note": ""
  },
  {
   "property": "C43",
   "status": "proved",
   "theorems": [
    "Verif.Parsec.C43_only_commit",
    "Verif.Parsec.C43_commit_writes",
    "Verif.Parsec.C43_exact_update",
    "Verif.Parsec.C43_value_stays",
    "Verif.Parsec.C43_granted_value"
   ],
   "note": ""
  },
  {
   "property": "C44",
   "status": "proved",
   "theorems": [
    "Verif.Parsec.C44_answered_once",
    "Verif.Parsec.C44_blocked"
   ],
   "note": ""
  },
  {
   "property": "C45",
   "status": "partial",
   "theorems": [
    "Verif.Parsec.C45_commit",
    "Verif.Parsec.C45_finish",
    "Verif.Parsec.C45_rollback_partial",
    "Verif.Parsec.C45_prepare",
    "Verif.Parsec.C45_prepare_reason",
    "Verif.Parsec.C45_lock",
    "Verif.Parsec.C45_rollback_violated",
    "Verif.Parsec.C45_exit_violated"
   ],
   "note": "false in the code: rollback of a committed transaction succeeds, and a repeated first lock request ends the process (counterexamples); everything else proved"
  },
  {
   "property": "C46",
   "status": "partial",
   "theorems": [
    "Verif.Parsec.C46_prepare_again",
    "Verif.Parsec.C46_finish_again",
    "Verif.Parsec.C46_data_partial",
    "Verif.Parsec.C46_commit_violated",
    "Verif.Parsec.C46_later_write_violated"
   ],
   "note": "repeated prepares and finishes are harmless; a repeated commit erases the committed values, also those of later transactions"
  },
  {
   "property": "C47",
   "status": "partial",
   "theorems": [
    "Verif.Parsec.Broker.C47_prepared_partial",
    "Verif.Parsec.Broker.C47_no_rollback_partial",
    "Verif.Parsec.Broker.C47_success_partial",
    "Verif.Parsec.Broker.C47_late_answer_violated"
   ],
   "note": "Every number of shards, every user behaviour, every order and content of answers, for runs without recovery in which answers to an attempt do not arrive after the transaction was reported rolled back. Without that assumption the property fails: a late answer to an earlier prepare makes the broker send commit to a shard that has not prepared (C47_late_answer_violated)."
  },
  {
   "property": "C48",
   "status": "partial",
   "theorems": [
    "Verif.Parsec.Broker.C48_commit",
    "Verif.Parsec.Broker.C48_rollback",
    "Verif.Parsec.Broker.C48_never_both",
    "Verif.Parsec.Broker.C48_finish",
    "Verif.Parsec.Broker.C48_complete",
    "Verif.Parsec.Broker.C48_no_exit",
    "Verif.Parsec.Broker.C48_success",
    "Verif.Parsec.Broker.C48_race_violated",
    "Verif.Parsec.C48_owner",
    "Verif.Parsec.C48_one_owner",
    "Verif.Parsec.C48_prepared_told"
   ],
   "note": "Proved for everything the shards reported, for every number of shards, all reports and all orders of answers. What the shards had committed without having reported it is lost: a commit on its way when the shard reports is undone elsewhere (C48_race_violated)."
  },
  {
   "property": "C49",
   "status": "proved",
   "theorems": [
    "Verif.Parsec.Tickets.C49_unique",
    "Verif.Parsec.Tickets.C49_issued",
    "Verif.Parsec.Tickets.C49_wraps"
   ],
   "note": "Raft is trusted to execute every command once; numbers repeat once 2^64 of them were given out (C49_wraps)."
  },
  {
   "property": "C50",
   "status": "proved",
   "theorems": [
    "Verif.Parsec.Agent.C50_success",
    "Verif.Parsec.Agent.C50_once",
    "Verif.Parsec.Agent.C50_readonly",
    "Verif.Parsec.Agent.C50_no_rollback",
    "Verif.Parsec.Agent.C50_no_crash",
    "Verif.Parsec.Agent.C50_answer_once",
    "Verif.Parsec.Agent.C50_exec_violated",
    "Verif.Parsec.Agent.C50_error_after_commit"
   ],
   "note": "For every sequence of events and of requests that cannot be sent. A success is reported only after commit and finish of the ticket were acknowledged, with the committed update; C50_no_crash and C50_answer_once assume a server that calls exec once and again after each retry and a broker that answers each request once. C50_exec_violated: exec called while the function is being fetched fails an assertion. C50_error_after_commit: a committed run may be reported as a finish error."
  },
  {
   "property": "C51",
   "status": "proved",
   "theorems": [
    "Verif.Evm.C51_add",
    "Verif.Evm.C51_sub",
    "Verif.Evm.C51_mul",
    "Verif.Evm.C51_shl",
    "Verif.Evm.C51_toU64",
    "Verif.Evm.C51_exact"
   ],
   "note": "All operators of math.cpp and to_uint64, loops modelled byte by byte; results equal the operations modulo 2^256."
  },
  {
   "property": "C52",
   "status": "partial",
   "theorems": [
    "Verif.Evm.C52_round_trip",
    "Verif.Evm.C52_prefix",
    "Verif.Evm.C52_injective",
    "Verif.Evm.C52_total",
    "Verif.Evm.C52_depth",
    "Verif.Evm.C52_value",
    "Verif.Evm.C52_shaped_partial",
    "Verif.Evm.C52_field_violated",
    "Verif.Evm.C52_input_violated",
    "Verif.Evm.C52_string_violated",
    "Verif.Evm.C52_access_violated",
    "Verif.Evm.C52_memory_violated"
   ],
   "note": "Round trip and totality of the codec proved for all trees and all bytes. Memory safety of field extraction is false of the code: values longer than the field write before the buffer, an array as input data is read from an empty buffer, and several malformed transactions throw. C52_shaped_partial proves it for transactions whose elements have the prescribed lengths."
  },
  {
   "property": "C53",
   "status": "proved",
   "theorems": [
    "Verif.Evm.C53_round_trip",
    "Verif.Evm.C53_other_fields",
    "Verif.Evm.C53_other_chain",
    "Verif.Evm.C53_other_chain_typed",
    "Verif.Evm.C53_elements"
   ],
   "note": "Round trip for all three types, given that fields foreign to the type are zero and a legacy v is not for another chain; what happens otherwise is proved too. C53_elements: exactly the elements of its type."
  },
  {
   "property": "C54",
   "status": "partial",
   "theorems": [
    "Verif.Evm.C54_funds_partial",
    "Verif.Evm.C54_total_partial",
    "Verif.Evm.C54_others",
    "Verif.Evm.C54_mint_violated"
   ],
   "note": "Proved when gas limit times gas price (plus value) does not exceed 2^256-1 and for senders which are not precompile addresses: funds check as unbounded numbers, total of balances never increases. Violated otherwise: the product wraps and money is made from nothing (C54_mint_violated)."
  },
  {
   "property": "C55",
   "status": "partial",
   "theorems": [
    "Verif.Evm.C55_accounts_partial",
    "Verif.Evm.C55_storage_violated",
    "Verif.Evm.C55_failure_violated"
   ],
   "note": "Account effects of a reverted execution are undone. Violated: storage, code and logs of a reverted execution are kept, and a failure other than revert keeps everything."
  },
  {
   "property": "C56",
   "status": "proved",
   "theorems": [
    "Verif.Evm.C56_nonce",
    "Verif.Evm.C56_others",
    "Verif.Evm.C56_never_twice"
   ],
   "note": "Nonce follows by exactly one, other accounts keep theirs, no transaction is executed twice in any sequence of requests served one after the other. Assumes fewer than 2^256 transactions per sender; senders are not contracts or precompile addresses."
  },
  {
   "property": "C57",
   "status": "partial",
   "theorems": [
    "Verif.Serial.C57_hostile_bytes_violated",
    "Verif.Serial.C57_plain_decode_total_partial"
   ],
   "note": "Contradicted for bool and variant fields; proved for integers, arrays, vectors, sets, maps and structures of them."
  },
  {
   "property": "C58",
   "status": "proved",
   "theorems": [
    "Verif.Serial.C58_canonical",
    "Verif.Serial.C58_maps_not_canonical"
   ],
   "note": "Types without sets and maps; the second theorem shows the restriction is needed."
  },
  {
   "property": "C59",
   "status": "partial",
   "theorems": [
    "Verif.Coordinator.C59_once_partial",
    "Verif.Coordinator.C59_twice_violated"
   ],
   "note": "Fails: a late copy of a lock request is taken for a new batch, and a late copy of the apply request then re-creates outputs that had been spent. Holds if no lock request arrives after the batch was applied."
  },
  {
   "property": "C60",
   "status": "proved",
   "theorems": [
    "Verif.Atomizer.C60_get_block"
   ],
   "note": "Fewer than 2^64 blocks."
  },
  {
   "property": "C61",
   "status": "proved",
   "theorems": [
    "Verif.Atomizer.C61_sentinels_signed",
    "Verif.Atomizer.C61_attested"
   ],
   "note": "Signatures abstract (Crypto.verify). Assumes notifications enter through tx_notify, as in the deployed controller."
  },
  {
   "property": "C62",
   "status": "partial",
   "theorems": [
    "Verif.Archiver.C62_gaps_requested_partial",
    "Verif.Archiver.C62_prune_stored",
    "Verif.Archiver.C62_never_repeated_violated",
    "Verif.Archiver.C62_pruned_violated"
   ],
   "note": "every gap is requested once and prune requests cover only stored blocks; the request is never repeated, so a lost one blocks the archiver until a restart, and pruning by one archiver removes blocks another still needs (both false in the code, with counterexamples)"
  },
  {
   "property": "C63",
   "status": "partial",
   "theorems": [
    "Verif.Watchtower.C63_follows",
    "Verif.Watchtower.C63_start",
    "Verif.Watchtower.C63_returns",
    "Verif.Watchtower.C63_answers",
    "Verif.Watchtower.C63_old_block_violated"
   ],
   "note": "blocks are added once and in order; a repeated block is not ignored but makes the handler loop for ever (counterexample)"
  },
  {
   "property": "C64",
   "status": "proved",
   "theorems": [
    "Verif.Sentinel.Atomizer.C64_forwarded",
    "Verif.Sentinel.Atomizer.C64_refused"
   ],
   "note": "the gathering loop is that of the two-phase sentinel model"
  },
  {
   "property": "C65",
   "status": "proved",
   "theorems": [
    "Verif.Parsec.C65_current",
    "Verif.Parsec.C65_unprepared",
    "Verif.Parsec.C65_commit"
   ],
   "note": "starting from any well-formed recovered state; Inherited are the locks a leader recovered. For changes of the leader see C67"
  },
  {
   "property": "C66",
   "status": "partial",
   "theorems": [
    "Verif.Parsec.C66_shard_partial",
    "Verif.Parsec.C66_values_partial",
    "Verif.Parsec.C66_prepared_partial",
    "Verif.Parsec.C66_committed_partial",
    "Verif.Parsec.C66_locks_partial",
    "Verif.Parsec.C66_repeated_commit_violated",
    "Verif.Parsec.C66_early_finish_violated"
   ],
   "note": "proved for careful requests (Careful); repeated commits and early finishes break it. Raft trusted as one list of commands"
  },
  {
   "property": "C67",
   "status": "partial",
   "theorems": [
    "Verif.Parsec.C67_serializable_partial",
    "Verif.Parsec.C67_inputs",
    "Verif.Parsec.C67_commit_order_violated"
   ],
   "note": "proved for careful requests (Careful), C46_commit_violated shows why that is needed; C67_commit_order_violated: the order of commits, unlike that of prepares, is not serial across leaders (read locks of prepared transactions are lost)"
  },
  {
   "property": "C68",
   "status": "partial",
   "theorems": [
    "Verif.Parsec.Broker.C68_success_once_partial",
    "Verif.Parsec.Broker.C68_lock_partial",
    "Verif.Parsec.Broker.C68_twice_violated",
    "Verif.Parsec.Broker.C68_never_violated"
   ],
   "note": "False as stated: commit calls back once per refusing shard, and never if no lock was requested. Proved: success is reported at most once; every lock request leads to exactly one answer."
  },
  {
   "property": "C69",
   "status": "partial",
   "theorems": [
    "Verif.Parsec.Tickets.C69_order",
    "Verif.Parsec.Tickets.C69_prompt",
    "Verif.Parsec.Tickets.C69_error",
    "Verif.Parsec.Tickets.C69_stuck_violated"
   ],
   "note": "Once and in order is proved. The claim that waiting requests are retried is false: after a lost answer the client waits for ever (C69_stuck_violated)."
  },
  {
   "property": "C70",
   "status": "partial",
   "theorems": [
    "Verif.Parsec.Agent.C70_destroy_partial",
    "Verif.Parsec.Agent.C70_violated",
    "Verif.Parsec.Agent.C70_committed_violated"
   ],
   "note": "Violated: the destructor of an agent that did not reach finish_complete calls fatal, which exits the process; the server destroys the agent after every error except retry. C70_destroy_partial: after a success, a function error or a commit error that was rolled back the destructor is harmless."
  },
  {
   "property": "C71",
   "status": "partial",
   "theorems": [
    "Verif.Parsec.Agent.C71_runner_partial",
    "Verif.Parsec.Agent.C71_destroyed_violated"
   ],
   "note": "Violated when a lock is answered after a rollback (C71_destroyed_violated); proved when no lock is answered after its attempt."
  },
  {
   "property": "C72",
   "status": "partial",
   "theorems": [
    "Verif.Wallet.C72_twophase_exact",
    "Verif.Wallet.C72_twophase",
    "Verif.Wallet.C72_atomizer_exact",
    "Verif.Wallet.C72_atomizer_sound",
    "Verif.Wallet.C72_atomizer_partial",
    "Verif.Wallet.C72_executed",
    "Verif.Wallet.C72_atomizer_violated",
    "Verif.Wallet.C72_aborted_violated"
   ],
   "note": "Two-phase client: exactly the reported transactions are settled. Atomizer client: only transactions in a block are settled (composed with the watchtower model), but one rejected payment keeps later ones from being settled (C72_atomizer_violated). C72_aborted_violated: the shards report aborted transactions as executed, so the client settles them."
  },
  {
   "property": "C73",
   "status": "partial",
   "theorems": [
    "Verif.Config.C73_placed_once",
    "Verif.Config.C73_placement_partial",
    "Verif.Config.C73_spendable_partial",
    "Verif.Config.C73_offset_violated",
    "Verif.Config.C73_ranges_violated",
    "Verif.Config.C73_last_unspent"
   ],
   "note": "False in general: the seeder numbers coins from 0 (seed_from must be 0) and splits ids evenly whatever ranges are configured. Proved under those two assumptions."
  },
  {
   "property": "C74",
   "status": "partial",
   "theorems": [
    "Verif.Hex.C74_number",
    "Verif.Hex.C74_too_long",
    "Verif.Hex.C74_sized",
    "Verif.Hex.C74_round_trip",
    "Verif.Hex.C74_quantity_partial",
    "Verif.Hex.C74_quantity_violated",
    "Verif.Hex.C74_argument_partial",
    "Verif.Hex.C74_argument_violated"
   ],
   "note": "uint256be_from_hex, from_hex<T> and to_hex_trimmed are exact. False parts: numbers of a JSON transaction with fewer than 64 digits are read as 0; an argument shorter than two characters ends the process."
  },
  {
   "property": "C75",
   "status": "proved",
   "theorems": [
    "Verif.Rpc.C75_callback",
    "Verif.Rpc.C75_returned",
    "Verif.Rpc.C75_once",
    "Verif.Rpc.C75_not_sent"
   ],
   "note": "Clients, servers and connections together; for the first 2^64 calls of a client. Messages are delivered whole and at most once per connection."
  },
  {
   "property": "C76",
   "status": "proved",
   "theorems": [
    "Verif.Bech32.C76_distance",
    "Verif.Bech32.C76_mistyped"
   ],
   "note": "The code distance is proved by linear algebra plus exhaustive kernel-evaluated checks over all 115971 pairs (Verif/Bech32/Table.lean)."
  },
  {
   "property": "C77",
   "status": "proved",
   "theorems": [
    "Verif.Evm.C77_signed",
    "Verif.Evm.C77_identified"
   ],
   "note": "Injectivity of the hashed bytes; that the hash function has no collisions is outside the model."
  },
  {
   "property": "C78",
   "status": "partial",
   "theorems": [
    "Verif.Evm.C78_round_trip",
    "Verif.Evm.C78_sender",
    "Verif.Evm.C78_identifier",
    "Verif.Evm.C78_identifier_violated",
    "Verif.Evm.C78_unique_partial"
   ],
   "note": "Attribution proved given that recovery undoes signing. Uniqueness of the identifier is false: bits of v above the lowest 64 (8 for typed transactions) are ignored by the signature check but hashed into the identifier."
  },
  {
   "property": "C79",
   "status": "proved",
   "theorems": [
    "Verif.Evm.C79_no_trace"
   ],
   "note": "For every tree of host calls. A dry run that emits a log ends with internal_error instead of an answer."
  },
  {
   "property": "C80",
   "status": "partial",
   "theorems": [
    "Verif.Evm.C80_address_partial",
    "Verif.Evm.C80_replaced_violated"
   ],
   "note": "Addresses of contracts created by transactions come from the sender's strictly growing nonce. Violated for contracts created by contracts: CREATE does not advance the creator's nonce."
  },
  {
   "property": "C81",
   "status": "partial",
   "theorems": [
    "Verif.Evm.C81_no_crash_partial",
    "Verif.Evm.C81_dry_run_violated",
    "Verif.Evm.C81_destroyed_violated",
    "Verif.Evm.C81_wounded_violated"
   ],
   "note": "No crash if no lock is refused and no account is destroyed. Three ways to end the agent's process are exhibited."
  },
  {
   "property": "C82",
   "status": "partial",
   "theorems": [
    "Verif.Evm.C82_exact_partial",
    "Verif.Evm.C82_no_part",
    "Verif.Evm.C82_keys",
    "Verif.Evm.C82_unanswered_violated",
    "Verif.Evm.C82_endless_violated",
    "Verif.Evm.C82_huge_violated",
    "Verif.Evm.C82_undefined_violated",
    "Verif.Evm.C82_twice_violated",
    "Verif.Evm.C82_accepted"
   ],
   "note": "Exact answer in every order of shard answers for distinct addresses and from <= to < 2^64-1; no partial answer when a lock is refused. Violated for other queries which the server accepts: never answered, never ending, 2^64 keys, signed overflow, repeated addresses."
  },
  {
   "property": "C83",
   "status": "partial",
   "theorems": [
    "Verif.Evm.C83_locked_partial",
    "Verif.Evm.C83_keys",
    "Verif.Evm.C83_precompile_violated",
    "Verif.Evm.C83_precompiles"
   ],
   "note": "All updated keys are write-locked unless value goes to a precompile address (violated there); the key encodings are injective and disjoint (hash keys: among each other up to SHA-256 collisions)."
  },
  {
   "property": "C84",
   "status": "partial",
   "theorems": [
    "Verif.Config.C84_accepted",
    "Verif.Config.C84_complete",
    "Verif.Config.C84_threshold_partial",
    "Verif.Config.C84_threshold_violated"
   ],
   "note": "All but the number of sentinels in atomizer mode, which is not compared with the threshold (C84_threshold_violated)."
  },
  {
   "property": "C85",
   "status": "proved",
   "theorems": [
    "Verif.Parsec.Broker.C85_atomic",
    "Verif.Parsec.Broker.C85_once",
    "Verif.Parsec.Broker.C85_rolled_back",
    "Verif.Parsec.Broker.C85_committed",
    "Verif.Parsec.Broker.C85_whole_update",
    "Verif.Parsec.Broker.C85_order_violated",
    "Verif.Parsec.Broker.C85_mixed_violated"
   ],
   "note": "Broker and shards composed with a network that keeps the order per shard and may lose requests. The _violated theorems show that the order of the calls is needed (a commit after a failed rollback can commit on one shard only) and that retrying a commit with other values mixes both."
  },
  {
   "property": "C86",
   "status": "proved",
   "theorems": [
    "Verif.Parsec.Broker.Server.C86_orderly",
    "Verif.Parsec.Broker.Server.C86_atomic",
    "Verif.Parsec.Broker.Server.C86_success",
    "Verif.Parsec.Broker.Server.C86_failure",
    "Verif.Parsec.Broker.Server.C86_finishing"
   ],
   "note": "Built on C49 to C51 (agent), C47 (broker), C39 (shard) and C85. Assumptions: DESIGN.md, 'Agent server'. Examples of runs in ServerRuns.lean."
  },
  {
   "property": "C87",
   "status": "proved",
   "theorems": [
    "Verif.Parsec.Broker.Many.C87_serializable",
    "Verif.Parsec.Broker.Many.C87_complete",
    "Verif.Parsec.Broker.Many.C87_inputs",
    "Verif.Parsec.Broker.Many.C87_outputs",
    "Verif.Parsec.Broker.Many.C87_strict"
   ],
   "note": "Many copies of the broker of C85 with common shards. Users keep the order of calls (Orderly), which C86 proves for agents. Assumptions: DESIGN.md, 'Many brokers'. A concrete run is in ManyExamples.lean."
  },
  {
   "property": "C88",
   "status": "proved",
   "theorems": [
    "Verif.Money.C88_lawful",
    "Verif.Money.C88_supply",
    "Verif.Money.C88_owner",
    "Verif.Money.C88_once"
   ],
   "note": "Composition of the transaction model (C05-C10), the sentinels' validation (C18) and the atomizer system (C19). Assumptions: DESIGN.md, 'Money'. exDeployed and exMoneyRun show a run with a double spend and a forged mint."
  },
  {
   "property": "C89",
   "status": "partial",
   "theorems": [
    "Verif.Money.TwoPhase.C89_lawful_partial",
    "Verif.Money.TwoPhase.C89_supply_partial",
    "Verif.Money.TwoPhase.C89_owner_partial",
    "Verif.Money.TwoPhase.C89_once_partial",
    "Verif.Money.TwoPhase.C89_uncontested",
    "Verif.Money.TwoPhase.C89_supply_violated"
   ],
   "note": "Holds in calm runs: no lock request of a batch is accepted by a shard after the batch was applied there, and no shard applies a batch with a refused transaction whose input another transaction holds. The second cannot happen while no two places in batches share an input (C89_uncontested). In general the property fails: C89_supply_violated is a run, at rest, in which the same transaction in two batches lets a third batch spend its input again and the unspent coins are worth more than was seeded. exCalmRun is a calm run. Assumptions: DESIGN.md, 'Money'."
  },
  {
   "property": "C90",
   "status": "partial",
   "theorems": [
    "Verif.Net.C90_order_partial",
    "Verif.Net.C90_lossless",
    "Verif.Net.C90_alive",
    "Verif.Net.C90_order_violated"
   ],
   "note": "Byte-level model of send and receive with arbitrary splitting of writes and reads, failures and reconnections. Wholeness, at most once, and order on each connection and from connection to connection hold; while one connection holds nothing is lost. In time, a packet on a new connection can overtake one on the old (C90_order_violated), since the receiver reads them in different threads. Messages are shorter than 2^64. exCalm and exBroken are concrete runs."
  },
  {
   "property": "C91",
   "status": "partial",
   "theorems": [
    "Verif.Net.C91_split",
    "Verif.Net.C91_alive_partial",
    "Verif.Net.C91_alive_violated"
   ],
   "note": "Independence of splitting holds in full. The process survives only if a buffer of every announced size can be made; C91_alive_violated: eight bytes 0xff announce a size that std::vector cannot have, and the exception ends the process."
  },
  {
   "property": "C92",
   "status": "proved",
   "theorems": [
    "Verif.Net.Inbox.C92_order",
    "Verif.Net.Inbox.C92_awake",
    "Verif.Net.Inbox.C92_fair"
   ],
   "note": "Model of the queues, the condition variable and the handler thread; C92_awake is about moments when no notification is under way. exTwo is a concrete run with two peers."
  },
  {
   "property": "C93",
   "status": "partial",
   "theorems": [
    "Verif.Net.Inbox.C93_handler_partial",
    "Verif.Net.Inbox.C93_woken_partial",
    "Verif.Net.Inbox.C93_handler_violated",
    "Verif.Net.Shutdown.C93_shutdown_partial",
    "Verif.Net.Shutdown.C93_shutdown_violated"
   ],
   "note": "close and shutdown set their flags and notify without holding the mutex of the condition variable, so a thread that has just looked at the flag sleeps for good (both violated theorems). In every other case the threads end after a bounded number of their own steps, in whatever order they run."
  },
  {
   "property": "C94",
   "status": "partial",
   "theorems": [
    "Verif.Coordinator.Threads.C94_answers",
    "Verif.Coordinator.Threads.C94_answered_partial",
    "Verif.Coordinator.Threads.C94_two_threads_violated",
    "Verif.Coordinator.Threads.C94_dropped_violated"
   ],
   "note": "At most once and truthfully holds in full (C94_answers). That every accepted transaction is answered holds for the one calling thread of the RPC server while the node stays leader, under every schedule (a bound on the steps, and what holds when none is left). It fails for two calling threads (wrong thread notified) and for transactions waiting for a batch when leadership is lost. That a batch comes to an end is assumed (see C17)."
  },
  {
   "property": "C95",
   "status": "partial",
   "theorems": [
    "Verif.Coordinator.Threads.C95_stop_partial",
    "Verif.Coordinator.Threads.C95_stop_violated"
   ],
   "note": "Holds under every schedule unless a calling thread waits for room in the batch; then stop joins that thread before notifying it (C95_stop_violated: reachable with the one calling thread of the RPC server, and no step but a spurious wake-up is possible from there)."
  },
  {
   "property": "C96",
   "status": "partial",
   "theorems": [
    "Verif.Http.C96_exactly_partial",
    "Verif.Http.C96_violated"
   ],
   "note": "The fatal requests are listed exactly (Deadly): any other request is answered, each of these throws out of the server or leaves a buffer. C96_violated: six such requests, for any agent. Not modelled: the depth limit of jsoncpp, which throws too."
  },
  {
   "property": "C97",
   "status": "partial",
   "theorems": [
    "Verif.Http.C97_response",
    "Verif.Http.C97_answer_partial",
    "Verif.Http.C97_id_violated"
   ],
   "note": "Proved for numeric ids from 0 to 2^64-1. Other ids come back as 0, and some handlers make the server give a second response, which libmicrohttpd refuses (C97_id_violated)."
  },
  {
   "property": "C98",
   "status": "partial",
   "theorems": [
    "Verif.Http.C98_count",
    "Verif.Http.C98_next",
    "Verif.Http.C98_balance",
    "Verif.Http.C98_storage",
    "Verif.Http.C98_code_partial",
    "Verif.Http.C98_code_violated",
    "Verif.Http.C98_wounded_violated"
   ],
   "note": "eth_getCode puts the serialized length before the code, so it never tells the code (C98_code_violated). A read which has to give way gets an error, not a retry (C98_wounded_violated)."
  },
  {
   "property": "C99",
   "status": "partial",
   "theorems": [
    "Verif.Http.C99_send",
    "Verif.Http.C99_sent",
    "Verif.Http.C99_transaction",
    "Verif.Http.C99_receipt_partial",
    "Verif.Http.C99_block_partial",
    "Verif.Http.C99_success_violated",
    "Verif.Http.C99_empty_violated"
   ],
   "note": "The field success of a receipt is always 1 (C99_success_violated); a block of which the lock is refused is shown as empty (C99_empty_violated). The serialized receipt in the shards is a parameter. The access list of a transaction in JSON is not covered."
  }
 ]
}