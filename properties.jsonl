{"id": "C01", "title": "Binary serialization round-trips", "statement": "Reading back what was written yields the original value and consumes exactly the bytes that were written: for fixed-width integers, byte arrays, buffers, optionals, pairs, vectors, tagged unions and every structure composed of them, deserializing serialize(x) followed by any further bytes returns x and leaves exactly those further bytes unread.", "quantifier": "every value of every composed type (lengths below 2^64) and every trailing byte string", "why_tests_cant": "The value space and nesting depth are unbounded; tests sample a few values.", "anchors": ["src/util/serialization/format.hpp: operator<< / operator>> templates", "src/util/serialization/format.cpp: buffer operators", "src/util/serialization/buffer_serializer.cpp: read, write", "src/util/serialization/util.hpp: make_buffer, from_buffer"]}
{"id": "C02", "title": "Truncated messages are rejected", "statement": "If a serialized message is cut short at any point, deserializing the shortened bytes reports failure; it never produces a value.", "quantifier": "every value, every composed type, every strict prefix of its serialization", "why_tests_cant": "Every cut point of every message of every type would have to be tried.", "anchors": ["src/util/serialization/buffer_serializer.cpp: read", "src/util/serialization/format.hpp", "src/util/serialization/util.hpp: from_buffer"]}
{"id": "C03", "title": "Transaction wire messages round-trip and are injective", "statement": "Full transactions, compact transactions, inputs, outputs, outpoints and attestations survive serialization, and two different transactions never have the same serialization.", "quantifier": "every transaction (any number of inputs, outputs, witnesses, attestations)", "why_tests_cant": "Injectivity is a statement about all pairs of transactions.", "anchors": ["src/uhs/transaction/messages.cpp", "src/uhs/transaction/transaction.hpp: full_tx, compact_tx"]}
{"id": "C04", "title": "Set and map messages decode exactly the declared elements", "statement": "A decoder for an unordered set or map consumes exactly the number of elements announced by the length prefix, so it accepts exactly the encodings produced by the encoder.", "quantifier": "every byte string offered as an encoded set or map", "why_tests_cant": "Adversarial byte strings are unbounded; tests only decode what the encoder produced.", "anchors": ["src/util/serialization/format.hpp: operator>>(serializer&, unordered_map), operator>>(serializer&, unordered_set), operator>>(serializer&, set)"]}
{"id": "C05", "title": "A transaction id commits to the whole transaction body", "statement": "Two transactions with the same id have the same inputs and outputs, in the same order; changing the witnesses does not change the id.", "quantifier": "every pair of transactions, assuming the hash function has no collision on the two preimages", "why_tests_cant": "Quantifies over all pairs of transactions.", "anchors": ["src/uhs/transaction/transaction.cpp: tx_id", "src/uhs/transaction/messages.cpp"]}
{"id": "C06", "title": "Spending references match created outputs", "statement": "The UHS id that a spender presents for an output (the hash of the input made from it) is the UHS id that was recorded when the output was created, and two different outputs (different transaction, index or contents) never share a UHS id.", "quantifier": "every transaction, every output index, every pair of outputs, assuming no hash collision on the preimages involved", "why_tests_cant": "Pairs of outputs across all transactions cannot be enumerated.", "anchors": ["src/uhs/transaction/transaction.cpp: input_from_output, uhs_id_from_output, input::hash, compact_tx::compact_tx"]}
{"id": "C07", "title": "Accepted transactions conserve value", "statement": "If transaction validation accepts a transaction then the mathematical (unbounded) sum of its input values equals the sum of its output values, and every input and output is worth at least one unit; no 64-bit wrap-around can make money.", "quantifier": "every transaction with 64-bit values", "why_tests_cant": "Overflow counterexamples live among 2^64-sized values and arbitrary list lengths.", "anchors": ["src/uhs/transaction/validation.cpp: check_tx, check_in_out_set, check_input_set, check_output_value"]}
{"id": "C08", "title": "Transaction validation accepts exactly the well-formed transactions", "statement": "Validation returns no error if and only if the transaction has at least one input and one output, exactly one witness per input, no outpoint used twice, every value at least 1, totals that fit 64 bits and agree, and every witness is a valid pay-to-public-key spend of its input.", "quantifier": "every transaction and every behaviour of the signature and hash primitives", "why_tests_cant": "An if-and-only-if over all transactions; a test can only show individual accept/reject cases.", "anchors": ["src/uhs/transaction/validation.cpp: check_tx, check_tx_structure, check_input_structure, check_witness"]}
{"id": "C09", "title": "Accepted transactions are authorised by the owners of their inputs", "statement": "If validation accepts a transaction, then for every input there is a public key whose hash is the commitment stored in the spent output, and a signature by that key over this transaction's id.", "quantifier": "every transaction, every input position", "why_tests_cant": "Would need every malformed witness.", "anchors": ["src/uhs/transaction/validation.cpp: check_witness, check_p2pk_witness, check_p2pk_witness_commitment, check_p2pk_witness_signature"]}
{"id": "C10", "title": "Attestation threshold", "statement": "A compact transaction passes the attestation check exactly when it carries attestations from at least the threshold number of distinct keys, all of which are authorised sentinel keys and all of whose signatures verify over the id, inputs and outputs of this very compact transaction.", "quantifier": "every compact transaction, key set and threshold", "why_tests_cant": "Every combination of attestation sets and keys.", "anchors": ["src/uhs/transaction/validation.cpp: check_attestations", "src/uhs/transaction/transaction.cpp: compact_tx::hash, compact_tx::verify"]}
{"id": "C11", "title": "Locking shard: an output is spent at most once", "statement": "Over any history of lock, apply and discard requests (any order, duplicates included) no unspent output is consumed by two different completed transactions unless it was created again in between.", "quantifier": "every finite history of shard requests, every batch content", "why_tests_cant": "Requires all interleavings of concurrent distributed transactions.", "anchors": ["src/uhs/twophase/locking_shard/locking_shard.cpp: lock_outputs, check_and_lock_tx, apply_outputs, discard_dtx"]}
{"id": "C12", "title": "Locking shard: an id is never both unspent and locked, and value is not lost on abort", "statement": "At every moment no output is simultaneously unspent and locked, and aborting a transaction whose inputs this shard locked makes exactly those inputs unspent again.", "quantifier": "every finite history of shard requests", "why_tests_cant": "An invariant of all reachable states.", "anchors": ["src/uhs/twophase/locking_shard/locking_shard.cpp: check_and_lock_tx, apply_outputs"]}
{"id": "C13", "title": "Locking shard requests are idempotent", "statement": "Re-delivering a lock, apply or discard request that has already been processed returns the same answer and leaves the shard unchanged.", "quantifier": "every reachable shard state, every request", "why_tests_cant": "Retries can happen at any point of any history.", "anchors": ["src/uhs/twophase/locking_shard/locking_shard.cpp: lock_outputs, apply_outputs, discard_dtx", "src/uhs/twophase/locking_shard/state_machine.cpp: process_request"]}
{"id": "C14", "title": "Locking shard grants all or none of a transaction's local inputs", "statement": "A transaction in a batch is reported lockable exactly when every one of its inputs owned by this shard is unspent at its turn in the batch and its attestations are sufficient; a transaction reported not lockable locks nothing.", "quantifier": "every shard state, every batch, every position in the batch", "why_tests_cant": "Batches of any size with arbitrary overlap.", "anchors": ["src/uhs/twophase/locking_shard/locking_shard.cpp: lock_outputs, check_and_lock_tx"]}
{"id": "C15", "title": "Completed-transaction and unspent queries tell the truth", "statement": "The read-only transaction query answers yes only for transactions whose effects were applied, and the unspent query answers yes exactly for outputs that are unspent or locked by a transaction still in flight.", "quantifier": "every history of shard requests and queries", "why_tests_cant": "Depends on the whole history of the shard.", "anchors": ["src/uhs/twophase/locking_shard/locking_shard.cpp: check_unspent, check_tx_id, apply_outputs"]}
{"id": "C16", "title": "Two-phase commit is atomic across shards", "statement": "When a distributed transaction batch runs to completion, every transaction of the batch is either executed on every shard that owns any of its inputs or outputs, or on none; it executes exactly when every shard owning one of its inputs could lock it.", "quantifier": "every number of shards, every batch, every shard reply", "why_tests_cant": "Combinations of per-shard outcomes are unbounded.", "anchors": ["src/uhs/twophase/coordinator/distributed_tx.cpp: prepare, commit, execute, add_tx"]}
{"id": "C17", "title": "Coordinator recovery never changes a decision", "statement": "If a coordinator crashes at any point while executing a batch and another node recovers it from the replicated coordinator state, the recovered execution ends with the same per-transaction outcome that any shard has already applied, and no shard applies two different decisions for one batch.", "quantifier": "every crash point, any number of crashes, every shard behaviour that re-answers identical requests identically", "why_tests_cant": "Crash points and repeated crashes cannot be enumerated.", "anchors": ["src/uhs/twophase/coordinator/distributed_tx.cpp", "src/uhs/twophase/coordinator/state_machine.cpp: commit", "src/uhs/twophase/coordinator/controller.cpp: recovery_func"]}
{"id": "C18", "title": "Sentinel reports a transaction confirmed only if it was executed", "statement": "The two-phase sentinel answers 'confirmed' only after the coordinator reported success, answers 'state invalid' only after the coordinator reported failure, forwards only transactions that pass static validation with at least the threshold of attestations, and answers each request at most once.", "quantifier": "every transaction, every sequence of remote replies", "why_tests_cant": "All orders of asynchronous replies.", "anchors": ["src/uhs/twophase/sentinel_2pc/controller.cpp: execute_transaction, result_handler, gather_attestations, validate_result_handler, send_compact_tx"]}
{"id": "C19", "title": "Atomizer: no output is spent in two blocks", "statement": "With shards that attest an input at a height only if the output is unspent after applying the blocks up to that height, no output appears as an input of two transactions in the chain of blocks unless an intervening block created it again.", "quantifier": "every sequence of notifications and block cuts, any cache depth, delays and reordering of notifications", "why_tests_cant": "Races between attestations and blocks over unbounded histories.", "anchors": ["src/uhs/atomizer/atomizer/atomizer.cpp: insert, insert_complete, make_block, check_stxo_cache, check_notification_offset", "src/uhs/atomizer/shard/shard.cpp: digest_transaction, digest_block"]}
{"id": "C20", "title": "Atomizer: a transaction is confirmed only with attestations for all of its inputs", "statement": "A transaction enters a block only after every one of its inputs was attested by a notification whose height lies in the spent-output cache window, and it enters at most one pending block.", "quantifier": "every sequence of notifications and block cuts", "why_tests_cant": "Arrival orders and partial attestations are unbounded.", "anchors": ["src/uhs/atomizer/atomizer/atomizer.cpp: insert, insert_complete, add_tx_to_stxo_cache"]}
{"id": "C21", "title": "Atomizer blocks are consecutive and lose nothing", "statement": "Each block cut has height one more than the previous one, contains exactly the transactions confirmed since the previous block in the order they were confirmed, and starting the next block empties the pending list.", "quantifier": "every sequence of operations", "why_tests_cant": "Statement about all interleavings of inserts and block cuts.", "anchors": ["src/uhs/atomizer/atomizer/atomizer.cpp: make_block, insert_complete", "src/uhs/atomizer/atomizer/state_machine.cpp: commit"]}
{"id": "C22", "title": "Atomizer snapshots are faithful", "statement": "Restoring an atomizer from its serialized snapshot yields a state that answers every later operation exactly as the original would.", "quantifier": "every reachable atomizer state, every later operation sequence", "why_tests_cant": "All states and all continuations.", "anchors": ["src/uhs/atomizer/atomizer/atomizer.cpp: serialize, deserialize, operator==", "src/uhs/atomizer/atomizer/state_machine.cpp: save_logical_snp_obj, apply_snapshot"]}
{"id": "C23", "title": "Atomizer shard applies each block exactly once and in order", "statement": "A shard refuses blocks with gaps, ignores blocks it has already applied, and after block h its set of unspent ids is exactly the initial set updated by the spends and creations of blocks 1..h restricted to its range; a snapshot in use by readers is never modified.", "quantifier": "every sequence of block deliveries (duplicates, reordering, gaps) and every restart point", "why_tests_cant": "Delivery orders and restarts are unbounded.", "anchors": ["src/uhs/atomizer/shard/shard.cpp: digest_block, open_db, update_snapshot, best_block_height"]}
{"id": "C24", "title": "Atomizer shard attests exactly the inputs it owns", "statement": "For a transaction, the shard's notification lists exactly the positions of inputs in its range, all of which are unspent at the reported height; if any input in its range is not unspent it reports precisely the missing ids instead, and never attests a transaction with no inputs in a way that creates money.", "quantifier": "every shard state, every compact transaction", "why_tests_cant": "Every overlap of ranges, inputs and stored ids.", "anchors": ["src/uhs/atomizer/shard/shard.cpp: digest_transaction, is_output_on_shard"]}
{"id": "C25", "title": "Archiver stores a gap-free chain and returns what was stored", "statement": "The archiver's best height only grows, every height up to it holds the block that was digested at that height, out-of-order blocks are held back until their predecessors arrive, and a lookup returns exactly the stored block.", "quantifier": "every sequence of block deliveries, duplicates, gaps, and restarts at any write", "why_tests_cant": "All delivery orders.", "anchors": ["src/uhs/atomizer/archiver/controller.cpp: digest_block, get_block, request_block, best_block_height"]}
{"id": "C26", "title": "Watchtower block cache answers from the most recent blocks", "statement": "The watchtower's answers about an output (created, spent, at which height and by which transaction) agree with the last k blocks it was given, where k is its configured size, and older blocks have no influence.", "quantifier": "every sequence of blocks, every cache size, every query", "why_tests_cant": "Eviction behaviour over unbounded histories.", "anchors": ["src/uhs/atomizer/watchtower/block_cache.cpp: push_block, check_unspent, check_spent", "src/uhs/atomizer/watchtower/watchtower.cpp: handle_status_update_request"]}
{"id": "C27", "title": "Watchtower error cache keeps the latest errors", "statement": "Among the last k transaction errors pushed, a lookup by transaction id or by output id returns an error that was pushed for it, and every one of the last k errors can be found.", "quantifier": "every sequence of pushed errors, every capacity", "why_tests_cant": "Eviction order and repeated ids.", "anchors": ["src/uhs/atomizer/watchtower/error_cache.cpp: push_errors, check_tx_id, check_uhs_id"]}
{"id": "C28", "title": "Sentinel sends each input to a shard responsible for it", "statement": "When forwarding a transaction, the atomizer sentinel sends it to connected shards such that every input whose range is served by some connected shard reaches one such shard.", "quantifier": "every shard layout, every set of connected shards, every transaction", "why_tests_cant": "All layouts and input positions.", "anchors": ["src/uhs/atomizer/sentinel/controller.cpp: send_compact_tx"]}
{"id": "C29", "title": "Wallet payments are well formed", "statement": "A transaction created by the wallet to pay an amount spends only outputs the wallet holds, each at most once, has an output of exactly that amount to the payee, returns the rest to the wallet as change, and conserves value; if the wallet cannot afford it, nothing is returned and the wallet is unchanged.", "quantifier": "every wallet state whose outputs are worth less than 2^64 in total, every amount", "why_tests_cant": "All coin selections.", "anchors": ["src/uhs/transaction/wallet.cpp: send_to, accumulate_inputs, fan, update_balance"]}
{"id": "C30", "title": "Wallet balance equals the value of its spendable outputs", "statement": "After any sequence of minting, paying, confirming and crediting, the reported balance equals the total value of the outputs the wallet holds, and every output offered for spending is one it holds.", "quantifier": "every history of wallet operations", "why_tests_cant": "History-dependent invariant.", "anchors": ["src/uhs/transaction/wallet.cpp: update_balance, confirm_transaction, confirm_inputs, balance, accumulate_inputs"]}
{"id": "C31", "title": "Client: abandoned payments return the money, confirmed ones are applied once", "statement": "Abandoning a pending payment returns exactly those of its inputs not used by another pending payment; confirming applies it once; importing notifications for several outputs of one transaction and then confirming it credits all of them.", "quantifier": "every history of client operations", "why_tests_cant": "History-dependent.", "anchors": ["src/uhs/client/client.cpp: abandon_transaction, confirm_transaction, import_send_input, check_pending, register_pending_tx"]}
{"id": "C32", "title": "Bounded recent-item set", "statement": "The bounded set never exceeds its capacity, reports an item as new exactly when it is absent, and always contains the most recently added capacity-many distinct items.", "quantifier": "every capacity, every sequence of additions", "why_tests_cant": "Unbounded sequences.", "anchors": ["src/util/common/cache_set.hpp: cache_set::add, contains"]}
{"id": "C33", "title": "Producer-consumer queue delivers every item exactly once, in order, and never strands a waiter", "statement": "Items are popped in push order, each exactly once, by any number of consumers; a consumer is left asleep only while the queue is empty; clear wakes everyone.", "quantifier": "every interleaving of any number of producers, consumers, spurious wake-ups", "why_tests_cant": "Schedules cannot be enumerated.", "anchors": ["src/util/common/blocking_queue.hpp: push, pop, clear, reset"]}
{"id": "C34", "title": "Raft log store behaves as a contiguous log across restarts", "statement": "After any sequence of append, overwrite, compaction, pack/unpack and restart, the entries reported between the start index and the next index are exactly those last written there, and the next index never goes backwards except by an explicit overwrite.", "quantifier": "every sequence of log operations and restarts", "why_tests_cant": "Histories with restarts at arbitrary points.", "anchors": ["src/util/raft/log_store.cpp: append, write_at, compact, apply_pack, pack, load, next_slot, start_index, entry_at"]}
{"id": "C35", "title": "RPC replies reach the caller that asked, at most once", "statement": "A reply delivered by the RPC client completes exactly the pending call with the same request id, each asynchronous callback runs at most once, and unknown or repeated replies have no effect.", "quantifier": "every interleaving of calls, replies, duplicates, timeouts and send failures", "why_tests_cant": "Interleavings.", "anchors": ["src/util/rpc/client.hpp: call, make_request", "src/util/rpc/tcp_client.hpp: send_request, set_response, call_raw, response_handler"]}
{"id": "C36", "title": "Seed ranges and shard ranges partition", "statement": "The seed ranges handed to load generators are disjoint, contiguous and stay within the configured range; a shard owns an id exactly when its first byte lies within its configured bounds, so shards with adjacent ranges covering 0..255 own every id exactly once.", "quantifier": "every configuration, every id", "why_tests_cant": "All configurations.", "anchors": ["src/util/common/config.cpp: loadgen_seed_range, hash_in_shard_range"]}
{"id": "C37", "title": "Hex text round-trips", "statement": "Converting bytes to hex and back returns the same bytes, and decoding rejects text of odd length, empty text, over-long text and text containing non-hex digits.", "quantifier": "every byte string, every text", "why_tests_cant": "All strings.", "anchors": ["src/util/common/buffer.cpp: to_hex, from_hex, from_hex_prefixed"]}
{"id": "C38", "title": "Bech32 addresses round-trip and detect errors", "statement": "Encoding any data under a valid prefix yields text that decodes to the same prefix and data; any single mistyped character is rejected; decoding an address yields a public key only for properly formed addresses and two different address strings of the same case never yield the same key.", "quantifier": "every data string, every single-character error, every text", "why_tests_cant": "All strings and error positions.", "anchors": ["3rdparty/bech32/bech32.cpp: Encode, Decode, PolyMod, CreateChecksum, VerifyChecksum", "src/uhs/client/client.cpp: address::decode"]}
{"id": "C39", "title": "Parsec shard: readers-writer exclusion", "statement": "At every moment a key is held by at most one writer, and while some transaction holds the write lock no other transaction holds a read lock on it.", "quantifier": "every history of shard operations", "why_tests_cant": "All interleavings of lock, prepare, commit, rollback and finish requests.", "anchors": ["src/parsec/runtime_locking_shard/impl.cpp: try_lock, acquire_lock, release_locks"]}
{"id": "C40", "title": "Parsec shard: lock table and transactions agree", "statement": "A transaction is recorded as holding a lock exactly when the lock table names it as holder, is recorded as waiting exactly when it is in the wait queue, and a wounded, committed or finished transaction holds and waits for nothing.", "quantifier": "every history of shard operations", "why_tests_cant": "Invariant over reachable states.", "anchors": ["src/parsec/runtime_locking_shard/impl.cpp: try_lock, wound_tickets, release_locks, acquire_locks, commit, rollback, finish"]}
{"id": "C41", "title": "Parsec shard: no deadlock", "statement": "Waiting is always ordered: whenever a transaction waits for a lock on a key, every transaction holding a conflicting lock on that key is either older (smaller ticket number) or already prepared, and prepared transactions wait for nothing; hence no cycle of waiting transactions can arise, even across shards.", "quantifier": "every history of shard operations, every number of transactions and keys", "why_tests_cant": "Deadlocks are schedule-dependent.", "anchors": ["src/parsec/runtime_locking_shard/impl.cpp: try_lock, get_waiting_on, wound_tickets, acquire_lock"]}
{"id": "C42", "title": "Parsec shard: prepared transactions are safe from wounding", "statement": "After a transaction is prepared, no operation of any other transaction changes its state, its locks or its pending update; only its own commit or rollback ends it.", "quantifier": "every history of shard operations by other transactions", "why_tests_cant": "All subsequent histories.", "anchors": ["src/parsec/runtime_locking_shard/impl.cpp: prepare, wound_tickets"]}
{"id": "C43", "title": "Parsec shard: values change only by committing under a write lock", "statement": "The value of a key changes only when a transaction that holds the key's write lock and prepared that exact new value commits; while a transaction holds a read lock the value it was given stays current.", "quantifier": "every history of shard operations", "why_tests_cant": "Isolation over all interleavings.", "anchors": ["src/parsec/runtime_locking_shard/impl.cpp: prepare, commit, acquire_lock"]}
{"id": "C44", "title": "Parsec shard: every lock request is answered exactly once and no grantable request is left waiting", "statement": "Each lock request's callback is invoked at most once; after every operation the first waiting request of every key is blocked by a current conflicting holder.", "quantifier": "every history of shard operations", "why_tests_cant": "Lost wake-ups depend on the schedule.", "anchors": ["src/parsec/runtime_locking_shard/impl.cpp: acquire_lock, acquire_locks, wound_tickets, commit, rollback"]}
{"id": "C45", "title": "Parsec shard protocol errors are exact", "statement": "Each operation succeeds or reports the documented error exactly according to the state of the transaction: only begun transactions with all locks granted can prepare, only prepared ones commit, only committed ones finish, and rollback is refused after commit.", "quantifier": "every shard state, every operation", "why_tests_cant": "Complete state-by-operation matrix over unbounded states.", "anchors": ["src/parsec/runtime_locking_shard/impl.cpp: prepare, commit, rollback, finish", "src/parsec/runtime_locking_shard/interface.hpp: error_code"]}
{"id": "C46", "title": "Parsec replicated shard: repeated commits are harmless", "statement": "Replaying a prepare, commit or finish command on the replicated shard state leaves the state unchanged and returns the same answer, and the committed data always equals the result of applying each prepared update exactly once.", "quantifier": "every command history with repetitions", "why_tests_cant": "Repetition can occur at any point.", "anchors": ["src/parsec/runtime_locking_shard/replicated_shard.cpp: prepare, commit, finish", "src/parsec/runtime_locking_shard/state_machine.cpp: process_request"]}
{"id": "C47", "title": "Parsec broker: all-or-nothing commit", "statement": "A broker asks a shard to commit a transaction only after every shard the transaction touched has reported it prepared, never asks any shard to roll back a transaction after asking one to commit, and reports success only when every shard confirmed its commit.", "quantifier": "every number of shards, every order of replies", "why_tests_cant": "Reply orders are unbounded.", "anchors": ["src/parsec/broker/impl.cpp: commit, do_prepare, handle_prepare, do_commit, handle_commit, rollback"]}
{"id": "C48", "title": "Parsec broker: recovery completes what was decided", "statement": "After taking over another broker's transactions, recovery commits a transaction if some shard had already committed it and otherwise rolls it back; it never mixes the two for one transaction.", "quantifier": "every set of ticket states reported by any number of shards", "why_tests_cant": "All combinations of reported states.", "anchors": ["src/parsec/broker/impl.cpp: recover, handle_get_tickets, do_recovery"]}
{"id": "C49", "title": "Ticket numbers are unique", "statement": "No ticket number is handed out twice, to any client, through any number of batched fetches, until the 64-bit counter is exhausted.", "quantifier": "every interleaving of requests by any number of clients", "why_tests_cant": "Interleavings and wrap-around.", "anchors": ["src/parsec/ticket_machine/impl.cpp: get_ticket_number", "src/parsec/ticket_machine/client.cpp: get_ticket_number, fetch_tickets, handle_ticket_numbers"]}
{"id": "C50", "title": "Agent reports success only after commit and never rolls back committed work", "statement": "An agent run reports results to its caller only after the broker confirmed commit and finish, asks for rollback only for transactions whose commit was not acknowledged, never requests write locks or state updates in a read-only run, and invokes the caller at most once.", "quantifier": "every sequence of broker replies", "why_tests_cant": "Asynchronous reply orders.", "anchors": ["src/parsec/agent/impl.cpp: exec, handle_run, do_commit, handle_commit, do_result, do_finish, do_rollback, handle_rollback"]}
{"id": "C51", "title": "256-bit big-endian arithmetic is arithmetic modulo 2^256", "statement": "Addition, subtraction, multiplication and left shift on 32-byte big-endian numbers agree with the mathematical operations modulo 2^256.", "quantifier": "every pair of 256-bit numbers, every shift count", "why_tests_cant": "2^512 input pairs.", "anchors": ["src/parsec/agent/runners/evm/math.cpp: operator+, operator-, operator*, operator<<"]}
{"id": "C52", "title": "RLP encoding round-trips and decoding is memory safe", "statement": "Decoding the RLP encoding of any tree of byte strings returns that tree; decoding attacker-supplied bytes never reads or writes outside a buffer when extracting fixed-size fields.", "quantifier": "every tree, every byte string", "why_tests_cant": "All trees and adversarial inputs.", "anchors": ["src/parsec/agent/runners/evm/rlp.hpp: rlp_value::value", "src/parsec/agent/runners/evm/rlp_reader.cpp", "src/parsec/agent/runners/evm/rlp_writer.cpp"]}
{"id": "C53", "title": "EVM transactions survive encoding and decoding", "statement": "Encoding a signed transaction in the Ethereum format and decoding it returns the same transaction, for legacy, access-list and fee-market types.", "quantifier": "every transaction of every type", "why_tests_cant": "All field values.", "anchors": ["src/parsec/agent/runners/evm/serialization.cpp: tx_encode, tx_decode"]}
{"id": "C54", "title": "EVM execution cannot create money", "statement": "Executing a transaction never lets the sender move more than it owns: if the funds check passes, the sender's balance covers value plus maximum gas cost as unbounded integers, so the transfer cannot underflow and the total of all balances never increases.", "quantifier": "every sender balance and every 256-bit value, gas limit and gas price", "why_tests_cant": "Overflow witnesses among 2^768 combinations.", "anchors": ["src/parsec/agent/runners/evm/impl.cpp: handle_lock_from_account", "src/parsec/agent/runners/evm/host.cpp: transfer, finalize"]}
{"id": "C55", "title": "A failed EVM transaction changes nothing but nonce and fees", "statement": "If the top-level execution fails or reverts, the state updates written back contain no storage, code or balance effect of the failed execution other than the sender's nonce and gas payment.", "quantifier": "every sequence of state changes made before the failure", "why_tests_cant": "Depends on all executions.", "anchors": ["src/parsec/agent/runners/evm/impl.cpp: exec", "src/parsec/agent/runners/evm/host.cpp: revert, set_storage, get_state_updates"]}
{"id": "C56", "title": "EVM transactions cannot be replayed", "statement": "A transaction executes only if its nonce is exactly one more than the sender's stored nonce, and executing it advances the stored nonce by one, so the same signed transaction never executes twice.", "quantifier": "every history of transactions of an account", "why_tests_cant": "Histories.", "anchors": ["src/parsec/agent/runners/evm/impl.cpp: handle_lock_from_account", "src/parsec/agent/runners/evm/host.cpp: insert_account, get_state_updates, finalize, revert"]}
{"id": "C57", "title": "Hostile bytes are decoded or rejected, nothing else", "statement": "Deserializing any byte string as any message type ends with a value or a reported failure; it never has undefined behaviour, throws or runs forever.", "quantifier": "every byte string and every message type", "why_tests_cant": "All byte strings; an attacker chooses the worst one.", "anchors": ["src/util/serialization/format.hpp: operator>> for bool, optional, variant, unordered_set, unordered_map", "src/util/serialization/format.cpp: operator>>(serializer&, buffer&)", "src/util/common/variant_overloaded.hpp: expand_type"]}
{"id": "C58", "title": "Messages have a single encoding", "statement": "A byte string accepted as a message consists exactly of the serialization of the decoded value (followed by the unread bytes), so nobody can produce a second encoding of the same message.", "quantifier": "every byte string accepted as a message of a type without sets or maps", "why_tests_cant": "All byte strings.", "anchors": ["src/util/serialization/format.hpp", "src/uhs/transaction/messages.cpp"]}
{"id": "C59", "title": "A shard applies a batch at most once", "statement": "However requests of a distributed transaction batch are delayed, duplicated, reordered, re-sent after crashes or re-sent by recovering coordinators, no shard carries out the batch twice: its outputs are created at most once and cannot reappear after having been spent.", "quantifier": "every number of shards, every batch, every delivery order with duplicates, every sequence of crashes and recoveries", "why_tests_cant": "Needs all interleavings of duplicated messages with other batches.", "anchors": ["src/uhs/twophase/locking_shard/locking_shard.cpp: lock_outputs, apply_outputs, discard_dtx", "src/uhs/twophase/locking_shard/client.cpp: send_request", "src/uhs/twophase/coordinator/distributed_tx.cpp"]}
{"id": "C60", "title": "Stored atomizer blocks are served until pruned", "statement": "A get-block request answers with exactly the block that was cut at that height if it was cut and not pruned since, and with nothing otherwise.", "quantifier": "every sequence of state machine log entries", "why_tests_cant": "All interleavings of block cuts, prunes and queries.", "anchors": ["src/uhs/atomizer/atomizer/state_machine.cpp: commit (get_block_request, prune_request)"]}
{"id": "C61", "title": "Every transaction in an atomizer block was approved by enough sentinels", "statement": "Every transaction in every block the atomizer cuts carries valid signatures over it by at least the threshold number of distinct authorised sentinel keys.", "quantifier": "every execution of the atomizer cluster, its leaders and shards", "why_tests_cant": "Depends on all ways a transaction can reach the log.", "anchors": ["src/uhs/atomizer/atomizer/atomizer_raft.cpp: tx_notify, send_complete_txs", "src/uhs/atomizer/atomizer/state_machine.cpp: commit"]}
{"id": "C62", "title": "Archiver asks for every missing block and can fill its gaps", "statement": "Whenever an archiver receives a block ahead of its chain it asks the atomizer for the blocks in between, repeating the request until it is answered, and the atomizer keeps a block until every archiver has it; so an archiver that stays connected always catches up.", "quantifier": "for every order, loss and duplication of deliveries, every number of archivers and every timing of prune requests", "why_tests_cant": "catching up depends on losses and on the interleaving of several archivers with pruning; a test drives a single archiver with a few blocks", "anchors": ["src/uhs/atomizer/archiver/controller.cpp:digest_block", "src/uhs/atomizer/archiver/controller.cpp:request_prune", "src/uhs/atomizer/atomizer/state_machine.cpp:commit"]}
{"id": "C63", "title": "Watchtower sees every block of the chain once and in order", "statement": "However blocks are lost or delayed on the way from the atomizer, a watchtower adds the blocks of the chain to its cache one by one, each exactly once; a block ahead of it is added as soon as the archiver has supplied those in between, and a repeated block is ignored.", "quantifier": "for every chain, every block received and every delay of the archiver", "why_tests_cant": "depends on losses and on the timing of two other components; a test feeds blocks in order", "anchors": ["src/uhs/atomizer/watchtower/controller.cpp:atomizer_handler"]}
{"id": "C64", "title": "Atomizer sentinel forwards only valid and sufficiently attested transactions", "statement": "The sentinel of the atomizer architecture answers 'pending' exactly for transactions that pass static validation; a transaction it sends to shards is the compact form of such a transaction and carries attestations of at least the threshold of distinct keys, each its own or returned by a remote sentinel; after a refusal nothing is sent.", "quantifier": "for every transaction and every sequence of choices and replies of remote sentinels", "why_tests_cant": "all orders of asynchronous replies and random choices", "anchors": ["src/uhs/atomizer/sentinel/controller.cpp:execute_transaction", "src/uhs/atomizer/sentinel/controller.cpp:gather_attestations", "src/uhs/atomizer/sentinel/controller.cpp:validate_result_handler"]}
{"id": "C65", "title": "Parsec shard: a transaction commits on the data it was given", "statement": "At any moment while a transaction has a lock on a key, and in particular when it commits, the value it was given when it obtained that lock is the key's current value, so executing the committed transactions one after the other in the order of their commits would give each the same inputs.", "quantifier": "every history of shard operations, any number of transactions and keys", "why_tests_cant": "Serializability is about every interleaving of lock, wound, prepare, commit and rollback requests of all transactions.", "anchors": ["src/parsec/runtime_locking_shard/impl.cpp: try_lock, acquire_lock, release_locks, commit"]}
{"id": "C66", "title": "Parsec shard cluster: nothing confirmed is lost when the leader changes", "statement": "After a shard cluster confirms a prepare, the transaction stays prepared with the same update, and keeps write locks on every key it updates, under the current and all later leaders, until its commit, rollback or finish is requested. After it confirms a commit, the transaction stays committed and its values stay in the data, under all later leaders, until its rollback or finish is requested. The leader's data always equals the replicated data, and right after a leader change only prepared transactions hold locks.", "quantifier": "For every sequence of client requests, executed replicated commands and leader changes at any point, with any number of accepted but unexecuted commands lost at each change.", "why_tests_cant": "Tests run a single node or one scripted failover; the moment of the leader change relative to each of the pending commands gives unboundedly many interleavings.", "anchors": ["src/parsec/runtime_locking_shard/replicated_shard.cpp", "src/parsec/runtime_locking_shard/server.cpp", "src/parsec/runtime_locking_shard/controller.cpp"]}
{"id": "C67", "title": "Parsec shard cluster: committed transactions are serializable across leader changes", "statement": "The committed transactions of a shard cluster, executed one after the other in the order in which their prepares were accepted, each find exactly the values the shard gave them under their locks and together produce exactly the current data, also when leaders change in between.", "quantifier": "For every sequence of requests, executed commands and leader changes.", "why_tests_cant": "Serializability ranges over all interleavings of arbitrarily many transactions and failures; a test observes one.", "anchors": ["src/parsec/runtime_locking_shard/replicated_shard.cpp", "src/parsec/runtime_locking_shard/server.cpp", "src/parsec/runtime_locking_shard/impl.cpp"]}
{"id": "C68", "title": "Parsec broker: every request is answered exactly once", "statement": "The callback a user hands to the broker for a lock, a commit, a rollback or a finish is called exactly once, provided the shards answer, and a transaction's success is never reported twice.", "quantifier": "every number of shards, every order and content of the shards' answers", "why_tests_cant": "Which combination of answers calls a callback twice, or never, depends on interleavings of several shards.", "anchors": ["src/parsec/broker/impl.cpp: try_lock, handle_find_key, handle_lock, commit, handle_prepare, handle_commit, rollback, handle_rollback, finish, handle_finish"]}
{"id": "C69", "title": "Ticket client: every request is answered once, in order", "statement": "A ticket machine client calls the callback of every request it accepted exactly once and in the order of the requests; requests wait only while it has no numbers, and waiting requests are eventually retried.", "quantifier": "every interleaving of requests, answers, errors and losses, any number of clients", "why_tests_cant": "Depends on the interleaving of calls, answers and losses, and on how often the queue runs empty.", "anchors": ["src/parsec/ticket_machine/client.cpp: get_ticket_number, fetch_tickets, handle_ticket_numbers"]}
{"id": "C70", "title": "Agent server: a failed request does not end the process", "statement": "When a run fails for any reason (no ticket number, broker unreachable, commit or finish error), the client is answered with an error and the agent process goes on serving its other transactions.", "quantifier": "every sequence of answers of the broker, ticket machine and runner, every state the agent can be in when it reports a result", "why_tests_cant": "The failure needs particular answers of remote services at particular states; the destructor's check is only reached after the answer was sent.", "anchors": ["src/parsec/agent/impl.cpp: ~impl, do_result", "src/parsec/agent/server_interface.cpp", "src/parsec/agent/runners/lua/server.cpp: request_handler"]}
{"id": "C71", "title": "Agent: only the current runner is told about locks", "statement": "Every attempt of a run starts at most one runner, after all locks held by the previous attempt were requested again; an answer to a lock request is passed only to the runner of the current attempt, which still exists.", "quantifier": "every interleaving of lock answers, rollbacks, retries and runner requests", "why_tests_cant": "Depends on answers arriving after the attempt that asked has been rolled back.", "anchors": ["src/parsec/agent/impl.cpp: do_try_lock_request, handle_try_lock_response, handle_function, do_runner, exec"]}
{"id": "C72", "title": "Client sync settles exactly the executed payments", "statement": "After sync, a pending payment or notification is settled (applied to the wallet and no longer pending) exactly if the network reports its transaction as executed; nothing that was not executed is ever settled.", "quantifier": "every client state, every set of answers of the network in every order, every history of the watchtower or shard behind the answers", "why_tests_cant": "Depends on the order of an unordered map of answers and on histories of other components; unit tests use one pending payment.", "anchors": ["src/uhs/client/atomizer_client.cpp: sync", "src/uhs/client/twophase_client.cpp: sync", "src/uhs/client/client.cpp: confirm_transaction"]}
{"id": "C73", "title": "Seeded coins exist where they will be spent", "statement": "Every seeded coin that a load generator spends has been created by the shard seeder, in the files of exactly the shard that owns its id, and no two load generators spend the same seeded coin.", "quantifier": "every seed range, number of generators, number of shards and shard ranges", "why_tests_cant": "All configurations; the seeder, the generators and the shards compute the ranges separately.", "anchors": ["tools/shard-seeder/shard-seeder.cpp: main", "src/util/common/config.cpp: loadgen_seed_range, hash_in_shard_range", "src/uhs/transaction/wallet.cpp: seed_readonly"]}
{"id": "C74", "title": "Numbers and addresses in JSON requests are read as given", "statement": "A number given in hex in a JSON request to the EVM agent is read as exactly that number or the request is refused; numbers in answers read back as the same number; and no text argument can stop the process.", "quantifier": "every text argument, every 256-bit number", "why_tests_cant": "All texts and all numbers.", "anchors": ["src/parsec/agent/runners/evm/util.cpp: uint256be_from_hex, to_hex_trimmed", "src/parsec/agent/runners/evm/serialization.cpp: buffer_from_json, uint256be_from_json, uint256be_or_default, raw_tx_from_json", "src/parsec/agent/runners/evm/http_server.cpp: handle_get_transaction_count"]}
{"id": "C75", "title": "RPC answers come from the server that handled that very request", "statement": "Whatever a call returns, or its callback is given, is what some server's handler answered to the payload of exactly that call of exactly that client; the RPC layer never lets a request be handled twice, and a request whose call reported a failure to send is never handled.", "quantifier": "every number of clients, servers and connections, every interleaving of calls, deliveries, answers and disconnections", "why_tests_cant": "Mixing up two clients with the same request id, or answering on another connection, needs particular interleavings of several machines and reconnections.", "anchors": ["src/util/rpc/tcp_server.hpp: init", "src/util/rpc/async_server.hpp: async_call", "src/util/rpc/blocking_server.hpp: blocking_call", "src/util/network/connection_manager.cpp: add, send, send_to_one, start_handler", "src/util/rpc/tcp_client.hpp"]}
{"id": "C76", "title": "Up to four mistyped characters are noticed", "statement": "Two texts of the same length that bech32 decoding accepts under the same prefix are either the same up to the case of their letters or differ in at least five characters; so a payment address in which one to four characters were replaced is never accepted.", "quantifier": "all texts, all prefixes, all sets of one to four replaced positions, all replacement characters", "why_tests_cant": "An address of 63 characters has about 10^12 variants with four replaced characters, and the guarantee is about all addresses.", "anchors": ["3rdparty/bech32/bech32.cpp:33-90", "3rdparty/bech32/bech32.cpp:114-121", "3rdparty/bech32/bech32.cpp:159-190", "src/uhs/client/client.cpp:27-58"]}
{"id": "C77", "title": "A signature is for one transaction only", "statement": "The bytes that are hashed and signed for an Ethereum-format transaction determine the chain, the type, nonce, fees, gas limit, destination, value, input and access list, and the bytes hashed for the transaction identifier determine these and the signature; so a signature made for one transaction authorises no other, on this chain or any other.", "quantifier": "for all pairs of transactions of all types and all pairs of chain ids", "why_tests_cant": "A collision would be one pair among an unbounded number of transactions with nested access lists; tests compare a few fixed vectors.", "anchors": ["src/parsec/agent/runners/evm/serialization.cpp:155-206 tx_encode", "src/parsec/agent/runners/evm/signature.cpp:134-138 sig_hash", "src/parsec/agent/runners/evm/serialization.cpp:21-25 tx_id"]}
{"id": "C78", "title": "A transaction is attributed to the key that signed it and has one identifier", "statement": "A transaction signed with a key is attributed to the address of that key, for all types and chain ids in use, and nobody without the key can turn it into another transaction with the same sender and effect but a different identifier.", "quantifier": "for all transactions, keys, types, chain ids and modified signatures", "why_tests_cant": "Tests sign and check a few transactions; the modified signatures are unbounded.", "anchors": ["src/parsec/agent/runners/evm/signature.cpp:22-83", "src/parsec/agent/runners/evm/signature.cpp:104-132 check_signature"]}
{"id": "C79", "title": "A dry run leaves no trace", "statement": "Running a transaction as a dry run (eth_call, eth_estimateGas) asks the shards for no write lock and gives back updates that change no account, no storage and no code, whatever the contract does.", "quantifier": "all worlds, senders, transactions, lock outcomes and contract behaviours", "why_tests_cant": "A contract can make any sequence of nested calls, creations and storage writes, and any of its lock requests may fail.", "anchors": ["src/parsec/agent/runners/evm/impl.cpp:434-445", "src/parsec/agent/runners/evm/host.cpp:39-81", "src/parsec/agent/runners/evm/host.cpp:481-535", "src/parsec/agent/impl.cpp:205-209"]}
{"id": "C80", "title": "Creating a contract never replaces an existing one", "statement": "If two contract creations, in the same or in different transactions, succeed, the second does not overwrite the code of the first; a new contract never gets an address at which there already is one.", "quantifier": "all transactions, all sequences of creations by contracts, all worlds", "why_tests_cant": "The address depends on nonces which other transactions and nested creations change; tests create one contract.", "anchors": ["src/parsec/agent/runners/evm/host.cpp:226-306", "src/parsec/agent/runners/evm/address.cpp:20-55", "src/parsec/agent/runners/evm/impl.cpp:641-714"]}
{"id": "C81", "title": "No transaction ends the agent's process", "statement": "Whatever the content of a transaction and of the contracts it calls, executing it ends with an answer: the agent's process does not dereference an absent account and does not crash.", "quantifier": "all transactions, contract behaviours, worlds, lock outcomes", "why_tests_cant": "The failing paths need combinations of failed locks, destroyed contracts and nested transfers that tests do not produce.", "anchors": ["src/parsec/agent/runners/evm/host.cpp:217-373", "src/parsec/agent/runners/evm/host.cpp:548-592", "src/parsec/agent/runners/evm/impl.cpp:567-596"]}
{"id": "C82", "title": "A log query returns exactly the matching logs", "statement": "A log query which the server accepts is answered, with exactly the logs which were emitted by the requested addresses in the requested blocks and carry one of the requested topics, each of them once.", "quantifier": "all histories of executed transactions, all queries, all orders of answers from the shards", "why_tests_cant": "The query range, the number of addresses and the order in which shards answer are unbounded; tests use a handful of logs.", "anchors": ["src/parsec/agent/runners/evm/impl.cpp:220-342", "src/parsec/agent/runners/evm/http_server.cpp:560-790", "src/parsec/agent/runners/evm/host.cpp:443-479", "src/parsec/agent/runners/evm/host.cpp:524-533"]}
{"id": "C83", "title": "Every key an execution updates was locked for writing, and keys of different things differ", "statement": "Each account, storage cell and code that an executed transaction updates was locked for writing before, so the broker accepts the commit and no concurrent transaction is overwritten; the keys under which accounts, code, storage, receipts, ticket numbers and logs are stored never coincide.", "quantifier": "all transactions, contract behaviours, worlds, lock outcomes, all pairs of keys", "why_tests_cant": "Which keys are touched depends on arbitrary contract behaviour.", "anchors": ["src/parsec/agent/runners/evm/host.cpp:39-81", "src/parsec/agent/runners/evm/host.cpp:481-535", "src/parsec/agent/runners/evm/host.cpp:548-742", "src/parsec/agent/runners/evm/format.cpp:22-36", "src/parsec/broker/impl.cpp:412-423"]}
{"id": "C84", "title": "Accepted configurations can run", "statement": "A configuration which check_options accepts has every kind of component its mode needs, a seed range that is in order with coins of non-zero value, and enough sentinels and sentinel keys to reach the required number of attestations; and a configuration with all these is accepted.", "quantifier": "all configurations, both modes", "why_tests_cant": "The combinations of component counts, thresholds and modes are unbounded; tests try a few files.", "anchors": ["src/util/common/config.cpp:680-734"]}
{"id": "C85", "title": "Parsec: a transaction happens on all its shards or on none", "statement": "A broker works for a user who asks for all locks of a transaction before asking to commit and who, after asking for a rollback, only repeats it; no process fails. If any shard commits the transaction, then every shard which was asked for a lock for it has committed it too or holds it prepared, with exactly its part of the update the user gave, and will not be asked to roll it back; a shard commits it at most once. Once the user is told that it is committed, all these shards have committed it. Once the user is told that it is rolled back, no shard has committed it or keeps any record of it, and no value has changed.", "quantifier": "all runs of a broker with any number of shards and transactions, other brokers' requests at any time, lost requests, any order between shards", "why_tests_cant": "Which of the many interleavings of requests, answers, losses, retries and other transactions happens cannot be chosen exhaustively by a test; the property speaks about several processes at once.", "anchors": ["src/parsec/broker/impl.cpp:132-640", "src/parsec/runtime_locking_shard/impl.cpp:14-429", "src/parsec/runtime_locking_shard/client.cpp:20-92"]}
{"id": "C86", "title": "Parsec: what an agent reports is what happened on the shards", "statement": "Agents run functions for clients through one broker and its shards; no process fails. Whatever the runners ask for and whenever exec is called, agents keep the order of calls which cross-shard atomicity needs, so no transaction of an agent happens on some of its shards only. When an agent reports success with an update, then under the ticket number the broker gave it every shard that was asked for a lock has committed, once, its part of exactly this update, and every key of the update was written with its value. When it reports an error, except that the broker cannot be reached, that finishing failed or that the rollback failed, then until it is run again no shard keeps a record of the transaction, none has committed it and no value was changed for it. An agent that is finishing has a transaction which is committed on all shards or not at all.", "quantifier": "all runs of any number of agents, configurations, functions, retries, shards, orders of answers, failed sends and lost requests", "why_tests_cant": "The report of one process is compared with the state of several others over unboundedly many interleavings, retries and failures; tests use mock brokers or a single happy path.", "anchors": ["src/parsec/agent/impl.cpp:38-655", "src/parsec/agent/server_interface.cpp:11-40", "src/parsec/broker/impl.cpp:132-640", "src/parsec/runtime_locking_shard/impl.cpp:14-429"]}
{"id": "C87", "title": "Parsec: transactions of all brokers are strictly serializable across shards", "statement": "Any number of brokers share the shards; no process fails. There is an order of exactly those transactions which some broker has asked a shard to commit, every one once, such that executing them one after the other in this order each finds, for every key it had locked on any shard, the value it had locked, and the values at the end are what the shards store, except for keys on which one of these transactions still holds the write lock and is going to write exactly this value. Every transaction a shard has committed or a user was told to be committed is in the order. Every value a user was told in answer to a lock request of the attempt that was committed, also one remembered by the broker, is the one the transaction finds in this order; what it writes there is the update the user asked for, every key of it on the shards that were asked to lock it. If one transaction is reported as committed before another is asked to commit, it comes first.", "quantifier": "all runs of any number of brokers and shards, tickets, keys, updates, interleavings, waits, wounds, retries, failed sends and lost requests", "why_tests_cant": "Serializability relates values seen and written by many transactions over all interleavings of many processes; a test can only observe single schedules, and the order need not be visible anywhere in the system.", "anchors": ["src/parsec/broker/impl.cpp:74-640", "src/parsec/broker/impl.cpp:731-802", "src/parsec/runtime_locking_shard/impl.cpp:14-429", "src/parsec/runtime_locking_shard/impl.cpp:482-540"]}
{"id": "C88", "title": "The money of the atomizer system is conserved from seeding to the last block", "statement": "As long as fewer than attestation_threshold of the listed sentinel keys are in dishonest hands, no signature is forged and no two strings hashed collide: the blocks of the atomizer hold the compact forms of well-formed full transactions that honest sentinels have signed, each at most once, in an order in which each spends only coins that exist; after any number of blocks the unspent ids are the ids of coins, one each, that are together worth exactly what was seeded; an id that was unspent and no longer is was spent by a transaction that carries the signature of the coin's owner; and no id is spent twice, ever. Whatever else shards and atomizer are sent is harmless.", "quantifier": "for all seeded coins, all sets of sentinel keys, thresholds and dishonest subsets smaller than the threshold, all transactions and notifications sent to shards and atomizer, all reachable states of the system and all prefixes of the chain", "why_tests_cant": "The claim joins the validation of full transactions, the hashing of coins, the attestation threshold, the shards and the atomizer over unbounded histories; tests check one component on a few transactions and never look at the total value behind hashed ids.", "anchors": ["src/uhs/atomizer/sentinel/controller.cpp:80-128", "src/uhs/transaction/validation.cpp", "src/uhs/transaction/transaction.cpp:72-187", "src/uhs/atomizer/atomizer/atomizer_raft.cpp:55-120", "src/uhs/atomizer/shard/shard.cpp", "tools/shard-seeder/shard-seeder.cpp:60-160"]}
{"id": "C89", "title": "The money of the two-phase system is conserved across batches, coordinators and shards", "statement": "As long as fewer than attestation_threshold of the listed sentinel keys are in dishonest hands, no signature is forged and no two strings hashed collide: the transactions that coordinators record as executed are, in the order of the recorded outcomes, the compact forms of well-formed full transactions that honest sentinels have signed, each at most once and each spending only coins that exist; whenever no batch is in flight, the unspent ids of all shards together are the ids of coins, one each, that are worth exactly what was seeded; an id that a shard reported as unspent and no longer does was spent by a transaction that carries the signature of the coin owner; and no id is spent twice, whatever batches, crashes, retries and recoveries there are.", "quantifier": "for all seeded coins, all partitions of the ids among shards, all sets of batches with arbitrary transactions, all interleavings of the batches, crashes, recoveries and repeated requests, and all reachable states of the system", "why_tests_cant": "The claim ranges over unbounded interleavings of many batches on common shards and joins validation, attestations, hashing, coordinators and shards; tests run a few batches one after another against one shard and never sum the value behind hashed ids.", "anchors": ["src/uhs/twophase/coordinator/distributed_tx.cpp", "src/uhs/twophase/coordinator/controller.cpp", "src/uhs/twophase/locking_shard/locking_shard.cpp:78-193", "src/uhs/twophase/sentinel_2pc/controller.cpp:143-155", "src/uhs/transaction/validation.cpp"]}
{"id": "C90", "title": "Messages arrive whole, in order and at most once", "statement": "Every message that a node's callback is given over a peer connection is a message that was passed to send on the other side, byte for byte; messages come in the order in which they were sent and none comes twice, although connections may fail in the middle of a message and be made anew. While one connection holds, nothing is lost: what has been given to the callback is a beginning of what was sent, and all of it once everything written has been read.", "quantifier": "for all sequences of messages, all ways in which the operating system splits writes and reads into chunks, and all interleavings of sending, receiving, failures and reconnections", "why_tests_cant": "Tests send a few small messages over loopback, where writes and reads are not split and connections do not fail in the middle of a message.", "anchors": ["src/util/network/tcp_socket.cpp:60-122 tcp_socket::send, receive", "src/util/network/peer.cpp:27-129 send, do_send, do_recv, do_reconnect, close"]}
{"id": "C91", "title": "No bytes from the network end the process", "statement": "What a node makes of the bytes that arrive on a connection depends on the bytes only and not on how they are split, and no sequence of bytes that someone sends ends the process of the receiving node.", "quantifier": "for all byte sequences and all ways of splitting them into reads", "why_tests_cant": "The bytes and the splits are unbounded; tests only receive what the same library has sent.", "anchors": ["src/util/network/tcp_socket.cpp:90-122 tcp_socket::receive", "src/util/network/peer.cpp:66-78 do_recv"]}
{"id": "C92", "title": "The packet handler gets every packet once and never sleeps over one", "statement": "A node's packet handler is given the packets of each peer unchanged, in the order in which they were received from that peer, none twice and none left out; the handler thread does not sleep while a received packet waits; and no peer can starve another, since each turn takes one packet of every peer that has one waiting.", "quantifier": "for all numbers of peers, all packets and all interleavings of receive threads, notifications (also spurious wake-ups) and the handler thread", "why_tests_cant": "The property is about all interleavings of several threads on a condition variable; a test sees a few schedules.", "anchors": ["src/util/network/connection_manager.cpp:49-78 handle_messages", "src/util/network/connection_manager.cpp:80-109 add", "src/util/network/connection_manager.cpp:161-182 start_handler"]}
{"id": "C93", "title": "Closing a connection manager or a peer comes to an end", "statement": "Once close is called on a connection manager its handler thread ends, and once shutdown is called on a peer the call returns, whatever the send, receive and reconnect threads are doing, without the remote side or a new message being needed for it.", "quantifier": "for all interleavings of the closing thread with the handler thread, and with the send, receive and reconnect threads of a peer, at every moment of their work", "why_tests_cant": "A lost wake-up needs a thread to be interrupted between two instructions; tests hit that window once in many thousand runs, if at all.", "anchors": ["src/util/network/connection_manager.cpp:184-199 close", "src/util/network/peer.cpp:33-40 shutdown", "src/util/network/peer.cpp:80-138 do_reconnect, close, signal_reconnect"]}
{"id": "C94", "title": "The coordinator answers every transaction it accepts, once and truthfully", "statement": "Every transaction for which the coordinator's execute_transaction returns true is put into exactly one batch; its callback is then called exactly once, with what that batch did with that transaction, or with no value if the batch failed. This comes about whatever the order in which the threads run: nobody sleeps for ever over a transaction, and a caller that waits for room in the batch gets its turn.", "quantifier": "for all numbers of execution threads and batch sizes, all sequences of calls, batch outcomes and changes of leadership, and all interleavings of the calling, executor and execution threads, with any choice of whom notify_one wakes", "why_tests_cant": "The property is about every schedule of several threads sharing one condition variable, over runs of any length.", "anchors": ["src/uhs/twophase/coordinator/controller.cpp:684-731 execute_transaction", "src/uhs/twophase/coordinator/controller.cpp:364-458 batch_executor_func", "src/uhs/twophase/coordinator/controller.cpp:490-525 schedule_exec", "src/uhs/twophase/coordinator/controller.cpp:585-654 start"]}
{"id": "C95", "title": "A coordinator that loses leadership stops and can be started again", "statement": "When a coordinator node stops being the leader or is shut down, stop returns whatever its threads are doing, so that the node can become leader again or exit.", "quantifier": "for all states that the calling, executor and execution threads can be in when leadership is lost, and all interleavings from then on", "why_tests_cant": "The failing interleaving needs all execution threads busy and a full batch at the moment at which leadership is lost.", "anchors": ["src/uhs/twophase/coordinator/controller.cpp:182-217 stop", "src/util/rpc/tcp_server.hpp:35-40 ~tcp_server", "src/uhs/twophase/coordinator/controller.cpp:701-723 execute_transaction"]}
{"id": "C96", "title": "No HTTP request stops the EVM agent", "statement": "Whatever a client sends to the HTTP server of the EVM agent, the process goes on, nothing is read or written outside a buffer, and the client gets a response.", "quantifier": "all HTTP requests, all methods, all JSON bodies and parameters, all contents of the shards", "why_tests_cant": "The JSON values and texts a client can send are unbounded; the fatal ones are few and far apart.", "anchors": ["src/parsec/agent/runners/evm/http_server.cpp:47-1443", "src/util/rpc/http/json_rpc_http_server.cpp:89-275", "src/parsec/agent/runners/evm/impl.cpp:147-425", "src/parsec/agent/runners/evm/serialization.cpp:208-335"]}
{"id": "C97", "title": "Every JSON-RPC request gets one answer, with its own id", "statement": "A client of the HTTP server gets exactly one response to each request: a result or an error of JSON-RPC with the id of the request, or the status that the request is invalid. It is never left waiting.", "quantifier": "all HTTP requests, all methods, ids and parameters", "why_tests_cant": "About fifty handlers each call the callback and return a value on many paths; all have to agree.", "anchors": ["src/parsec/agent/runners/evm/http_server.cpp:47-1443", "src/util/rpc/http/json_rpc_http_server.cpp:89-275"]}
{"id": "C98", "title": "The HTTP server tells what the shards hold about an account", "statement": "eth_getTransactionCount tells the nonce with which the next transaction of the account is accepted, eth_getBalance the balance, eth_getStorageAt the word in storage and eth_getCode the code.", "quantifier": "all worlds, addresses and keys, all ways to write an address in hex", "why_tests_cant": "All values of 256 bits, and two programs (the host which writes and the server which reads) have to agree on the form.", "anchors": ["src/parsec/agent/runners/evm/http_server.cpp:360-502", "src/parsec/agent/runners/evm/http_server.cpp:882-927", "src/parsec/agent/runners/evm/host.cpp:481-535", "src/parsec/agent/runners/evm/impl.cpp:107-122"]}
{"id": "C99", "title": "Transactions, receipts and blocks read over HTTP are those which were executed", "statement": "A signed transaction sent with eth_sendRawTransaction is executed as it is; under the hash the client gets, eth_getTransactionByHash describes the same transaction field by field, eth_getTransactionReceipt describes what it did, and the block of its ticket number lists it.", "quantifier": "all transactions of all types, all receipts and logs, all ticket numbers", "why_tests_cant": "All fields of all transactions; JSON has to say the same as the stored receipt.", "anchors": ["src/parsec/agent/runners/evm/http_server.cpp:283-306", "src/parsec/agent/runners/evm/http_server.cpp:504-558", "src/parsec/agent/runners/evm/http_server.cpp:827-1072", "src/parsec/agent/runners/evm/serialization.cpp:337-477"]}
{"id": "C100", "title": "The filter for logs never hides a log", "statement": "A client which tests logsBloom of a receipt or block as Ethereum prescribes never concludes that an address or topic is absent when one of the logs has it; bits are set for nothing else.", "quantifier": "all lists of logs, any hash function", "why_tests_cant": "Depends on the hash of every address and topic.", "anchors": ["src/parsec/agent/runners/evm/util.cpp:58-79", "src/parsec/agent/runners/evm/serialization.cpp:405-416", "src/parsec/agent/runners/evm/http_server.cpp:1039-1052"]}
{"id": "C101", "title": "A shard that misses blocks catches up and never departs from the chain", "statement": "Whatever blocks of the chain reach an atomizer shard, late, twice, in any order or with gaps, and whenever connections break or processes restart: the set of unspent ids it holds is at every moment that of the chain up to the height it reports, and once it has handled what reached it that height is the greatest it was told of. It gets there as soon as the archiver has the missing blocks.", "quantifier": "all chains, all sequences of packets to shard and archiver, breaks and restarts, all lags of the archiver", "why_tests_cant": "Depends on the order of packets, on how far the archiver is at each request and on when the connection breaks.", "anchors": ["src/uhs/atomizer/shard/controller.cpp:42-154", "src/uhs/atomizer/archiver/client.cpp:19-45", "src/uhs/atomizer/archiver/controller.cpp:147-173", "src/uhs/atomizer/shard/shard.cpp:57-103"]}
{"id": "C102", "title": "A block whose broadcast is lost reaches the archiver", "statement": "Whichever broadcasts of blocks are lost and in whatever order requests and answers arrive, once nothing is under way the archiver has every block up to the highest one that reached it since it was started, each as the atomizer made it; the exchange always comes to an end, and the atomizer never prunes a block the archiver lacks.", "quantifier": "all sequences of blocks, losses of broadcasts, orders of arrival and restarts of the archiver", "why_tests_cant": "Which broadcasts are lost and how requests, answers and prune requests overtake each other is not under a test's control.", "anchors": ["src/uhs/atomizer/atomizer/controller.cpp:102-156", "src/uhs/atomizer/atomizer/controller.cpp:172-229", "src/uhs/atomizer/archiver/controller.cpp:177-259", "src/uhs/atomizer/atomizer/state_machine.cpp:42-101"]}
{"id": "C103", "title": "A Lua contract is run once and comes to what it says", "statement": "A run of a contract by the Lua runner asks for locks one after the other and then reports at most once, asking for nothing afterwards. If every lock is answered with the value of the key, the run locks exactly the keys the contract yields, in that order, and reports exactly the entries of the table it returns, or the error code that fits what it did instead. The same code, parameter and values give the same report. A lock that is refused ends the run with an error and without updates. check_sig lets a contract go on only for a good signature. No contract ends the agent process or keeps it busy by what it returns.", "quantifier": "for all interpreters and byte code, parameters, values of the keys and answers of the broker in any order", "why_tests_cant": "The contracts are written by users and there is no end of them; the unit tests run a handful, all with string keys. Which tables end the process depends on how lua_tolstring and lua_next act on each other.", "anchors": ["src/parsec/agent/runners/lua/impl.cpp", "src/parsec/agent/runners/interface.hpp"]}
{"id": "C104", "title": "A raft node does not forget its vote", "statement": "Whenever a node of a replicated component (atomizer, shard, coordinator, ticket machine) stops, in the middle of a save or not, and starts again, it finds its term and vote as last saved completely, or as they are being saved; it always starts again; it never votes for two candidates in one term, and so two leaders are never elected in one term. Nodes with the same endpoints begin with the same cluster.", "quantifier": "for all sequences of votes, terms, ends and starts of the processes of any number of nodes, with ends between any two file operations", "why_tests_cant": "The moment at which a process ends between two file operations cannot be chosen in a test, and the tests have no loss of power or full disk.", "anchors": ["src/util/raft/state_manager.cpp", "src/util/raft/node.cpp"]}
{"id": "C105", "title": "The replicas of a locking shard are one shard", "statement": "Every answer a client of a replicated locking shard gets, from whichever replica leads at the time, is the one that a single shard gives to the agreed requests; two replicas never answer a request differently; a replica that starts again with empty memory comes to the same state; a question about the status of a coin or transaction is answered with the current state, or at least never goes back in time; and no request stops the shard for good.", "quantifier": "for all lists of agreed requests, any number of replicas, and all interleavings of execution, ends and starts of processes and questions", "why_tests_cant": "The tests run one replica without failures; which replica is asked at which point of its execution cannot be arranged.", "anchors": ["src/uhs/twophase/locking_shard/controller.cpp", "src/uhs/twophase/locking_shard/state_machine.cpp", "src/uhs/twophase/locking_shard/status_server.cpp", "src/util/raft/rpc_server.hpp"]}
{"id": "C106", "title": "Starting an agent gives the initial accounts their money exactly once", "statement": "When the EVM agent with number 0 starts on empty shards and goes on to serve, each of the 256 initial accounts holds a million tokens and there is no other money; a start that fails leaves every account as it was or seeded and nothing else changed; and starting the agent again, as after a crash, changes no balance and no nonce, so that no money is made and no transaction can be executed a second time.", "quantifier": "for every behaviour of the broker (refusals, errors, missing answers), every contents of the shards, every sequence of transactions and starts", "why_tests_cant": "tests start the agents once, on empty shards, and never look at the same shards after a second start of agent 0", "anchors": ["src/parsec/agent/agentd.cpp:107-121", "src/parsec/agent/runners/evm/util.cpp:101-144", "src/parsec/util.cpp:195-248"]}
{"id": "C107", "title": "A client that is killed loses no money", "statement": "A command line client that is killed at any moment, and then started again on the files it left, has every coin it owned before or after the operation it was carrying out, in its wallet or set aside for a payment that it can still settle or abandon; it has all its keys; it starts; and it never believes to own money or keys that it did not have.", "quantifier": "for all clients, all operations, every moment of the two file writes at which the program may be killed, every order of the containers", "why_tests_cant": "the tests save and load complete files only; no test stops the program between two writes, and there are as many moments as bytes", "anchors": ["src/uhs/client/client.cpp:71-86", "src/uhs/client/client.cpp:112-131", "src/uhs/client/client.cpp:253-339", "src/uhs/transaction/wallet.cpp:307-364", "src/util/serialization/istream_serializer.cpp:41-49"]}
{"id": "C108", "title": "What a configuration file says is what the system does", "statement": "A configuration file that describes options, in lines of any order and with remarks between them, is read as exactly these options; a variable of the environment with the name of a setting takes its place; what is not said is the documented default; nothing without a default is made up; no two settings are confused; and a setting that is said but not understood is reported.", "quantifier": "for all options, all numbers of components and nodes, all orders of the lines, all environments, all files", "why_tests_cant": "the tests read a few fixed files; they cannot cover all combinations of settings, nor all ways to write one that is then ignored", "anchors": ["src/util/common/config.cpp:13-30", "src/util/common/config.cpp:32-242", "src/util/common/config.cpp:244-678", "src/util/common/config.cpp:765-858", "src/util/common/config.hpp:47-126", "src/util/common/config.hpp:374-386"]}
{"id": "C109", "title": "What a command line says is what a program of the programmable system does", "statement": "A shard, ticket machine or agent that is started with arguments that describe a configuration, in any order and with others between them, works with exactly this configuration: it listens where the arguments say for its number; what is not said is the documented default; if something required is missing it ends with a message; no two components are confused; and every configuration can be given.", "quantifier": "for all configurations, all numbers of shards, nodes, ticket machines and agents, all orders of the arguments, all command lines", "why_tests_cant": "the tests use a few fixed command lines with one node in each cluster; names that coincide show only with more than ten shards and nodes", "anchors": ["src/parsec/util.cpp:12-47", "src/parsec/util.cpp:49-98", "src/parsec/util.cpp:100-193", "src/parsec/util.hpp:30-61", "src/parsec/runtime_locking_shard/runtime_locking_shardd.cpp:15-43", "src/parsec/ticket_machine/ticket_machined.cpp:15-41", "src/parsec/agent/agentd.cpp:34-45"]}
{"id": "C110", "title": "What is typed at the wallet program is what it does", "statement": "The commands of the client program do what they say: send and fan pay the amount that is typed to the owner of the address that is typed, mint makes the outputs asked for, newaddress prints an address that can be paid, and what send prints can be imported and confirmed by the recipient, who then holds exactly the amount sent. What cannot be done as typed is refused: the program says so, does not return 0 and leaves the client as it was; and money is not out of reach after a failed payment.", "quantifier": "for all clients, amounts, addresses, command lines, answers and silences of the sentinels, all sequences of later runs", "why_tests_cant": "the program has no tests of its own; the tests of the client call its functions with numbers and keys and never with texts, amounts above 32 bits, missing arguments or a silent sentinel", "anchors": ["src/uhs/client/client-cli.cpp:19-36", "src/uhs/client/client-cli.cpp:38-63", "src/uhs/client/client-cli.cpp:65-90", "src/uhs/client/client-cli.cpp:92-120", "src/uhs/client/client-cli.cpp:122-142", "src/uhs/client/client-cli.cpp:144-174", "src/uhs/client/client-cli.cpp:177-263", "src/uhs/client/client.cpp:133-195", "src/uhs/transaction/wallet.cpp:109-122"]}
{"id": "C111", "title": "Functions given to the thread pool are run", "statement": "A function that is given to the thread pool of an agent is run exactly once; it does not wait for the end of any other function; giving it does not wait either. Threads are used again, so that there are never more of them than functions that were unfinished at one time. The destruction of the pool comes to an end, and then no thread is left and every function that was given has been run.", "quantifier": "for all interleavings of any number of callers, pool threads, functions that call the pool themselves, and a destruction at any time", "why_tests_cant": "the pool has no test; lost functions and deadlocks need particular interleavings of push, of the flag of a thread, of its queue and of the destructor", "anchors": ["src/util/common/thread_pool.cpp:9-17", "src/util/common/thread_pool.cpp:19-43", "src/util/common/thread_pool.cpp:45-51", "src/util/common/thread_pool.hpp:27-35", "src/parsec/agent/runners/evm/impl.cpp:716-736"]}
{"id": "C112", "title": "A watchtower client gives each request its own answer and can be closed", "statement": "Every request made through a watchtower client returns the watchtower's answer to that very request, given between the request and its return. The asynchronous client hands every answer that arrives to the handlers once and in order. A client can be closed.", "quantifier": "for all numbers of threads that use a client, all sequences of requests, losses of the connection and answers, and all moments at which the client is destroyed", "why_tests_cant": "Tests use one thread, a watchtower that is up and a connection that holds; what happens with two threads, with a lost connection or with an idle client depends on interleavings they do not produce", "anchors": ["src/uhs/atomizer/watchtower/client.cpp:17-71", "src/uhs/atomizer/watchtower/client.cpp:75-128", "src/uhs/atomizer/watchtower/controller.cpp:141-163", "src/uhs/client/atomizer_client.cpp:26-37"]}
{"id": "C113", "title": "Each call over HTTP is answered once, with the reply to that call", "statement": "The callback of every call of the JSON-RPC client is called exactly once: with the reply of the server to what this call posted, or with nothing if the call failed, timed out or the client is destroyed. Calls are spread over the endpoints.", "quantifier": "for all sequences of calls, also from callbacks, all ways in which attempts end and replies arrive in pieces, all numbers of endpoints and all moments of destruction", "why_tests_cant": "Tests talk to one server that replies; failed attempts, partial replies, reuse of handles among interleaved calls and destruction with calls outstanding need all interleavings", "anchors": ["src/util/rpc/http/json_rpc_http_client.cpp:60-118", "src/util/rpc/http/json_rpc_http_client.cpp:120-225", "src/util/rpc/http/json_rpc_http_client.hpp:30-70"]}
{"id": "C114", "title": "The hash class computes SHA-256 however the message is written", "statement": "For every message of fewer than 2^64 bits, cut into calls of CSHA256::Write in any way, on a new object or one that was reset, no access leaves the 64-byte buffer and Finalize gives the SHA-256 of FIPS 180-4 of the message; hash_data, tx_id, uhs_id_from_output, input::hash and compact_tx::hash therefore give the SHA-256 of the bytes they are documented to hash.", "quantifier": "all messages of fewer than 2^64 bits, all divisions into calls, all contents of the uninitialised buffer, all earlier uses of the object", "why_tests_cant": "Tests compare a few digests with known values; the space of lengths, divisions into calls and contents of the buffer at each call is unbounded, and an error in one carry or one constant shows only on some messages.", "anchors": ["3rdparty/crypto/sha256.cpp:46-162", "3rdparty/crypto/sha256.cpp:633-686", "src/util/common/hash.cpp:40-50", "src/uhs/transaction/transaction.cpp:48-120"]}
{"id": "C115", "title": "The random source gives the SHA-256 of the seed and a counter, each byte once", "statement": "A random_source made from a file gives out, over all calls by all threads, the bytes of a sequence of blocks in order, none twice and none left out; as documented, block n is the SHA-256 of the 32-byte seed and n, so that seeing some blocks does not give the others away; and a source that could not read its seed does not come into being.", "quantifier": "all seeds, all numbers of calls, all builds (assertions on or off), all files including missing and short ones", "why_tests_cant": "Tests can check that numbers differ; they cannot tell a block computed from the seed from one computed from the previous block, nor try every seed, and they run in builds with assertions.", "anchors": ["src/util/common/random_source.cpp:14-60", "src/util/common/random_source.hpp:20-73", "src/uhs/transaction/wallet.cpp:139-144", "src/uhs/twophase/coordinator/controller.cpp:390"]}
{"id": "C116", "title": "A new coordinator leader reads back exactly the unfinished batches", "statement": "Controllers write prepare, commit, discard and done commands for batches into the replicated log; the state machine keeps the payloads as bytes it never looks at and writes them again, without a length, in its answer to get. After every log the state machine executed, whatever the order of iteration of its containers, the new leader reads the answer completely and finds every batch that is not done, once, in the phase and with the payload recorded last, and nothing else. The state machine executes an entry exactly when it is the next step of its batch and otherwise ends the process; it never throws.", "quantifier": "for all logs of fewer than 2^64 commands that controllers can build in which no batch is begun under the identifier of an unfinished one, all batches, payloads and iteration orders of the containers", "why_tests_cant": "writer, state machine and reader are three programs that agree on the bytes only by convention (the header is skipped by where the cursor stands, the payload has no length of its own); tests cover a few commands, and the failure would show only in a recovery", "anchors": ["src/uhs/twophase/coordinator/format.cpp:15-70", "src/uhs/twophase/coordinator/state_machine.cpp:14-92", "src/uhs/twophase/coordinator/controller.cpp:145-183", "src/uhs/twophase/coordinator/controller.cpp:220-280", "src/util/raft/messages.cpp:9-13"]}
{"id": "C117", "title": "Every message of the system is read back as it was written", "statement": "For each of the message types exchanged or stored by the components (transactions and their errors, blocks, watchtower, archiver, sentinel, shard, ticket machine and agent requests and answers, EVM transactions, receipts and logs, and the envelopes of remote calls), reading what was written gives the same message, leaves the cursor exactly behind it whatever follows, and no two different messages share their bytes.", "quantifier": "all values of all message types, all bytes that follow, all sequences of messages", "why_tests_cant": "Tests round-trip a few values of some types; a field missing or out of order in one of the two overloads shows only for values that differ in it.", "anchors": ["src/uhs/transaction/messages.cpp", "src/uhs/atomizer/watchtower/messages.cpp", "src/uhs/atomizer/atomizer/format.cpp", "src/uhs/twophase/locking_shard/format.cpp", "src/parsec/runtime_locking_shard/format.cpp", "src/parsec/agent/runners/evm/format.cpp", "src/util/rpc/format.hpp"]}
{"id": "C118", "title": "All serializers give and take the same bytes", "statement": "The size computed for an object is the number of its bytes; a buffer made for it, a NuRaft log entry made for it and a file it is saved to hold exactly these bytes, and nothing is written outside. A reader accepts the same bytes with the same result from a buffer, a log entry or a file, and reads nothing outside.", "quantifier": "all sequences of writes, all reading programs, all contents, all amounts of room in a file", "why_tests_cant": "The serializers differ in what they do at the end of the buffer and after a failure; tests use one of them for each type and mostly do not reach the end.", "anchors": ["src/util/serialization/buffer_serializer.cpp", "src/util/serialization/size_serializer.cpp", "src/util/serialization/istream_serializer.cpp", "src/util/serialization/ostream_serializer.cpp", "src/util/serialization/util.hpp", "src/util/raft/serialization.cpp", "src/util/raft/util.hpp"]}
{"id": "C119", "title": "Runtime locking shard: what the log in bytes tells callers and new leaders", "statement": "For every sequence of calls replicated through the log, each replica answers with bytes from which each caller's callback is told what the calls before it in the log say; a new leader that asks for the tickets is told exactly those prepared or committed and not finished, with their broker and update, whichever replica it is; an entry that cannot be read changes nothing.", "quantifier": "all sequences of calls, all replicas, all contents of updates", "why_tests_cant": "Tests run a few calls against the replicated shard without the log; that bytes, state machine and callbacks fit together for every history needs an invariant.", "anchors": ["src/parsec/runtime_locking_shard/state_machine.cpp", "src/parsec/runtime_locking_shard/replicated_shard_client.cpp", "src/parsec/runtime_locking_shard/replicated_shard.cpp", "src/parsec/runtime_locking_shard/format.cpp"]}
{"id": "C120", "title": "A program is the component that its arguments name", "statement": "If one of the eight programs of the two architectures (sentinel, shard, archiver, watchtower, atomizer; sentinel_2pc, locking shard, coordinator) runs with a configuration file and a number (and the number of a node), then the configuration was accepted, the component is configured, and the program listens at exactly the endpoints of this component, talks to exactly the components it is to talk to, opens the data base of this component and is the replica with this number in its own cluster. A component that is configured and has what it needs starts; a number that is not configured is refused with an error; no arguments make a program read outside the options.", "quantifier": "For every platform, every configuration file, every program and all command lines.", "why_tests_cant": "A test starts each program with a few good command lines of one configuration; the claim is about all files, all numbers and all spellings of numbers, with 32 and 64 bit conversions in between.", "anchors": ["src/uhs/atomizer/sentinel/sentineld.cpp", "src/uhs/atomizer/shard/shardd.cpp", "src/uhs/atomizer/archiver/archiverd.cpp", "src/uhs/atomizer/watchtower/watchtowerd.cpp", "src/uhs/atomizer/atomizer/atomizer-raftd.cpp", "src/uhs/twophase/sentinel_2pc/sentineld_2pc.cpp", "src/uhs/twophase/locking_shard/locking_shardd.cpp", "src/uhs/twophase/coordinator/coordinatord.cpp", "src/uhs/twophase/coordinator/controller.cpp:18-110", "src/uhs/twophase/locking_shard/controller.cpp:17-134"]}
{"id": "C121", "title": "A system whose configuration is accepted can be brought up", "statement": "Every component of an accepted configuration that is started and finds the components it needs gets to listen at all its endpoints (replicated ones: when they lead) and keeps connections to all its partners; nobody but watchtowers (an atomizer and the first archiver), leading coordinators (shards with a single node) and sentinels (the other sentinels) needs anybody; and there is an order in which all components come up. A component that starts before its partners connects to them later.", "quantifier": "For every accepted configuration file, every set of programs started with it, in every order, with every interleaving of starts, stops, changes of leader and failing connections.", "why_tests_cant": "A test starts the components of one configuration in the order that works; the claim is about all configurations and orders, and that something never happens in any of them cannot be observed.", "anchors": ["src/uhs/atomizer/sentinel/controller.cpp:22-82", "src/uhs/atomizer/shard/controller.cpp:42-102", "src/uhs/atomizer/atomizer/controller.cpp:60-101", "src/uhs/atomizer/watchtower/controller.cpp:43-93", "src/uhs/twophase/coordinator/controller.cpp:585-652", "src/util/network/connection_manager.cpp:113-126", "src/util/rpc/tcp_client.hpp:71-87"]}
{"id": "C122", "title": "The replicas of an atomizer are one atomizer, and none is lost with its process", "statement": "Whatever order the replicas of an atomizer execute the agreed entries in time, make snapshots, drop entries, receive the snapshot of a leader, are killed (also in the middle of writing, naming, removing or receiving a snapshot) and start again: every running replica holds what a single atomizer holds after the entries it has executed, every answer is that of the single atomizer, a replica that is down can start from its newest snapshot and needs no dropped entry, and then catches up; the last snapshot of a leader is there to be sent and brings a replica behind it up to date.", "quantifier": "all numbers of replicas, all lists of entries, all interleavings of executing, snapshots, dropping, transfer, kills at any byte and starts; all contents of the machine's state", "why_tests_cant": "Tests start one node, or restart a cleanly stopped one; the moments at which a process can be killed while it writes, renames and removes files, in combination with what the other replicas do, are unbounded.", "anchors": ["src/uhs/atomizer/atomizer/state_machine.cpp:23-332", "src/uhs/atomizer/atomizer/format.cpp:24-53", "src/uhs/atomizer/atomizer/state_machine.hpp:99-141", "src/uhs/atomizer/atomizer/atomizer_raft.cpp:14-45"]}
{"id": "C123", "title": "The event loop of the HTTP client watches what it is told and keeps its timers", "statement": "At any time epoll_event_handler has the kernel watch exactly the descriptors that were registered with register_fd and not removed since, each for what was asked last, provided that a descriptor is closed only after its removal; registrations never fail. poll answers all the descriptors the kernel reports and no others. A timer that set_timeout asked for is reported by poll at most once, never before its time, not at all when it was switched off, and as soon as its time is over.", "quantifier": "for all sequences of registrations, removals, timers, closings and polls, and all answers of epoll_wait that the kernel may give", "why_tests_cant": "The claim is about every interleaving of registrations, descriptors that are reused, and every time at which the kernel may return; a test drives one server for a few requests and cannot make events arrive just before each deadline.", "anchors": ["src/util/rpc/http/epoll_event_handler.cpp", "src/util/rpc/http/epoll_event_handler.hpp", "src/util/rpc/http/event_handler.hpp"]}
{"id": "C124", "title": "An agent server answers each request once, leaves none lying, and keeps nothing of what is done", "statement": "A client of an agent server (Lua or EVM) is told at most one result for its request, the one its own agent reported, and never that it should be retried. Until then the request is with the broker or the runner, which were asked, or waits in the queue of the agents to run again, and its agent is there; agents are run again in the order of their requests, each once for every time it asks. Once the client is told, the agent is destroyed and the process goes on.", "quantifier": "for any number of requests, every behaviour of broker and runner, every interleaving of callbacks, retry thread and cleanup thread", "why_tests_cant": "Agents, two threads and two queues hand numbers to each other; a lost, doubled or early number shows only under particular interleavings with particular failures, and memory that is not given back only after many of them.", "anchors": ["src/parsec/agent/server_interface.cpp", "src/parsec/agent/server_interface.hpp", "src/parsec/agent/runners/lua/server.cpp:40-79", "src/parsec/agent/runners/evm/http_server.cpp:1388-1442"]}
{"id": "C125", "title": "The HTTP server answers each request once, with what is due to it", "statement": "json_rpc_http_server sends at most one response to each request, on the connection the request came from; it is the one due to its method, its whole body and the first answer of the application (405 for other methods, 200 with the permissions for a preflight request, 400 for what cannot be parsed or is not handled, 500 or the result under the number of the request otherwise), with the headers for foreign origins if these are enabled. Every request received in full can be answered unless the application still owes the answer; a request that arrives when the server shuts down is told so. The destructor comes to an end, and nothing is undefined however often and whenever the application calls its callbacks.", "quantifier": "for any number of connections and requests, all methods and bodies in any pieces, all behaviours of the application and every order of callbacks, sends, timeouts and shutdown", "why_tests_cant": "Tests send a few well formed requests one after the other; answers that cross, callbacks called late or twice, uploads in pieces with other methods and a shutdown with requests in progress are interleavings no test drives.", "anchors": ["src/util/rpc/http/json_rpc_http_server.cpp", "src/util/rpc/http/json_rpc_http_server.hpp"]}
{"id": "C126", "title": "A lock that a PArSEC broker reports is held, as asked for", "statement": "When broker::impl::try_lock tells its user that a key is locked for a ticket, the shard of that key granted, in the current attempt of the ticket, a lock on that key for that ticket which is at least of the type asked for (a lock for reading is not passed off as one for writing), and the value told is the one the shard gave with it; a request that is not answered from what the broker knows goes to the shard the directory named, with the same key and type.", "quantifier": "for all numbers of shards and tickets, all sequences of requests, answers, upgrades, failures and rollbacks without recovery", "why_tests_cant": "The broker answers repeated requests from its own records; whether these agree with what shards granted depends on the order of upgrades, answers, errors and rollbacks of many requests, of which tests try one or two.", "anchors": ["src/parsec/broker/impl.cpp:74-180", "src/parsec/broker/impl.cpp:731-802", "src/parsec/broker/impl.hpp:126-145"]}
{"id": "C127", "title": "An agent that runs again asks first for the locks it had asked for", "statement": "When an attempt of a transaction was rolled back and the agent starts a runner again, every lock which the transaction asked for in an earlier attempt has been asked for again in this attempt, for writing if it was ever asked for writing; no other lock is asked for on behalf of the agent, none more strongly than before, and each once. So a transaction that found which keys it needs holds them before its code runs again.", "quantifier": "every sequence of events of an agent: requests of the runner for any keys and types in any order, wounds, rollbacks, failures of requests, any number of attempts", "why_tests_cant": "The locks remembered depend on the whole history of all attempts, including upgrades from read to write and failures in the middle of the re-acquisition.", "anchors": ["src/parsec/agent/impl.cpp: do_try_lock_request, handle_function", "src/parsec/agent/impl.hpp: m_requested_locks"]}
{"id": "C128", "title": "Every Ethereum transaction pays for its base gas, and its receipt says what it paid", "statement": "A transaction whose gas limit is below the base gas (21000, and 32000 more to create a contract) is refused and changes nothing. One that is executed makes the sum of all balances decrease by at least the gas price times the base gas and the gas its execution used, and the gas used in its receipt is the gas that was paid for.", "quantifier": "every world, sender, transaction and behaviour of the virtual machine", "why_tests_cant": "All 256-bit limits and prices and all executions; a test checks single receipts.", "anchors": ["src/parsec/agent/runners/evm/impl.cpp: check_base_gas, make_message, exec", "src/parsec/agent/runners/evm/host.cpp: finalize"]}
{"id": "C129", "title": "A sentinel server answers each request once", "statement": "The RPC server of a sentinel of the atomizer architecture calls the callback of each request that arrives exactly once, with the answer of the sentinel to that request; as long as the server runs no request is lost or overtaken in its queue and no thread ends; its destructor ends and leaves no request unanswered.", "quantifier": "for every number of threads, every sequence and interleaving of arrivals, wakeups, answers and the destructor", "why_tests_cant": "The outcome depends on the interleaving of the handler, the threads, their wakeups and the destructor, of which a test sees one.", "anchors": ["src/uhs/atomizer/sentinel/server.cpp:8-58", "src/uhs/atomizer/sentinel/server.hpp:20-50", "src/util/common/blocking_queue.hpp:32-99"]}
{"id": "C130", "title": "get_row returns the row", "statement": "get_row returns the value stored at the key, or an error that says what went wrong; it calls the callback once with the same result, and leaves no ticket behind.", "quantifier": "for every behaviour of the broker: whatever it refuses, leaves unanswered or answers, at once or later", "why_tests_cant": "The outcome depends on when and in which thread the broker answers; tests use a broker that answers at once or a network that answers quickly enough for the destroyed variables to be intact.", "anchors": ["src/parsec/util.cpp:250-343", "src/parsec/util.hpp:75-87"]}
{"id": "C131", "title": "A transaction that the shards attest in full is settled", "statement": "A transaction of which the shards attest every input, and which has enough attestations of sentinels, is handed to the replicated log of the atomizer once, and then is in the next block or is reported to the watchtowers as an error, not both.", "quantifier": "for every order of notifications, every mixture with notifications of other transactions, every time at which batches are sent, and every state of the replicated atomizer", "why_tests_cant": "The number of orders and mixtures of notifications, batches and changes of leader is unbounded; tests send the notifications of one transaction to one leader.", "anchors": ["src/uhs/atomizer/atomizer/atomizer_raft.cpp:55-133", "src/uhs/atomizer/atomizer/controller.cpp:102-170", "src/uhs/atomizer/atomizer/state_machine.cpp:42-101", "src/uhs/atomizer/atomizer/atomizer.cpp:134-156"]}
{"id": "C132", "title": "A two-phase client is told what the responsible shard says, and whether it minted", "statement": "check_unspent and check_tx_id of a two-phase client return what the shard cluster responsible for the identifier answers, and nothing if it does not; send_mint_tx returns true exactly if the coordinator executed the minting transaction, and then the wallet has the coins.", "quantifier": "for every list of shard ranges, every set of clusters that can be reached when the client starts, every answer and every delay", "why_tests_cant": "Which clusters are down when a client starts and how long the coordinator takes are not under the control of a test with mock servers; the dangling reference is only read after a timeout.", "anchors": ["src/uhs/twophase/locking_shard/status_client.hpp:73-82", "src/uhs/twophase/locking_shard/status_client.cpp:28-45", "src/uhs/client/twophase_client.cpp:24-112"]}
{"id": "C133", "title": "Atomizer: a payment of unspent coins goes through, and a refusal has a reason", "statement": "In every state that the atomizer system can reach, a shard that has applied every block attests a payment of unspent coins of its range at the current height, and refuses one only because it has seen no block or because the listed coins are not unspent in the chain it has seen. When such shards cover the inputs of an attested payment whose coins are unspent and not about to be spent, and a leader holds nothing about the payment, the system can put it into the next block. An error with which the cluster answers a batch names a transaction of the batch and a true reason: its oldest attestation is older than the cache is deep, or the listed inputs were spent since by a confirmed transaction or by one before it in the batch; a transaction to which neither applies is confirmed.", "quantifier": "for all cache depths, shard ranges, seeds, sets of submitted transactions and runs of the system, all payments and all batches", "why_tests_cant": "Tests show single payments accepted on a fresh system and single double spends refused. That nothing but a real conflict or age leads to a refusal, in every state after any interleaving of blocks, restarts and repeated messages, is about all of them.", "anchors": ["src/uhs/atomizer/shard/shard.cpp:105-167", "src/uhs/atomizer/atomizer/atomizer_raft.cpp:55-133", "src/uhs/atomizer/atomizer/atomizer.cpp:134-156", "src/uhs/atomizer/atomizer/state_machine.cpp:42-101"]}
{"id": "C134", "title": "Two-phase: a batch that was recorded can always be finished", "statement": "Once the coordinators have recorded a batch (or a node still holds it and has not recorded it), nothing that can happen to it leaves it stuck: nodes that die at any point, commands to the replicated state of which the answer is lost, and requests to the shards that come late, twice or in another order. As long as the shards are up, the leader or the next leader can carry the batch to its end: a node has every shard concerned apply the outcome and then forget the batch, and the replicated state of the coordinators is rid of it.", "quantifier": "every batch, every set of shards, every execution of the coordinators, their replicated state and the shards up to that moment", "why_tests_cant": "The states a batch can be left in are as many as the interleavings of crashes, lost answers and repeated messages; a test tries a handful, and can show neither that each of them can be recovered from nor that no other state arises.", "anchors": ["src/uhs/twophase/coordinator/distributed_tx.cpp:109-256", "src/uhs/twophase/coordinator/controller.cpp:248-289", "src/uhs/twophase/coordinator/state_machine.cpp:14-92", "src/uhs/twophase/locking_shard/locking_shard.cpp:78-182"]}
{"id": "C135", "title": "Two-phase: a payment of coins that are there goes through", "statement": "A new batch put to a coordinator can be seen through, whatever state earlier work has left the shards in, as long as they are up, and each of its payments then has an answer. A payment that no earlier one of the batch competes with is answered executed exactly when every shard with a part in it finds it attested and has its inputs unspent and unlocked; each of those shards then executes it and has its outputs to be spent, and otherwise each of them undoes it. The answer cannot depend on which nodes crash or on the order and number of messages: with no other work on the shards between, it is fixed by the coins they had when the batch was new.", "quantifier": "every set of shards, every state of them, every batch and every payment in it, every execution of the batch", "why_tests_cant": "Tests pay from a fresh state in one order of events. That every state and every schedule gives the same answer, and that there is always a schedule that gives one, is a statement over all of them.", "anchors": ["src/uhs/twophase/coordinator/distributed_tx.cpp:23-145", "src/uhs/twophase/coordinator/controller.cpp:248-289", "src/uhs/twophase/locking_shard/locking_shard.cpp:78-182"]}
{"id": "C136", "title": "A broker is told what a runtime locking shard says", "statement": "Whatever becomes of a request of a broker to a runtime locking shard (try_lock, prepare, commit, rollback, finish, get_tickets), the callback of the broker runs with what the shard says to that request, or with an error; the answer never ends the broker process.", "quantifier": "For all states of a shard, all requests, all outcomes of replicating the request (not leader, entry lost, executed with or without an error), and all executions of clients, servers and connections of the RPC layer", "why_tests_cant": "The tests of the shard client use servers that succeed; the answer sent when replication fails is of another alternative of the response variant, which only shows when leadership is lost or a command fails while a request is under way.", "anchors": ["src/parsec/runtime_locking_shard/server.cpp:27-174", "src/parsec/runtime_locking_shard/client.cpp:20-110", "src/parsec/runtime_locking_shard/messages.hpp:69-71", "src/parsec/runtime_locking_shard/replicated_shard_client.cpp:18-139", "src/util/rpc/async_server.hpp:76-99"]}
{"id": "C137", "title": "Who asks a sentinel is told what it said about that transaction", "statement": "A call of the sentinel client (execute_transaction or validate_transaction, waiting or with a callback) ends with the outcome or the attestation that the sentinel gave for that very transaction, or with none; it never throws.", "quantifier": "For all transactions, outcomes and attestations, all sentinels of the code, and all executions of clients, servers and connections of the RPC layer", "why_tests_cant": "Which request an answer belongs to, and whether it is of the kind the caller unpacks, depends on the order in which many answers and connections interleave; tests ask one sentinel at a time and never a sentinel that answers wrongly.", "anchors": ["src/uhs/sentinel/client.cpp:27-70", "src/uhs/atomizer/sentinel/server.cpp:37-59", "src/uhs/twophase/sentinel_2pc/server.cpp:15-30", "src/util/rpc/tcp_client.hpp:95-175"]}
{"id": "C138", "title": "Parsec shard: only an older transaction wounds, and the oldest gets through", "statement": "A transaction is wounded only when an older transaction asks for a lock that a lock of the former conflicts with, and the recorded details name that transaction and key. A transaction is never wounded while only younger ones make requests; the oldest transaction of a shard is first in every queue it waits in and waits only for prepared transactions, so it holds all locks it asked for when none is prepared. An agent that runs its transaction again does so with the same ticket number.", "quantifier": "For all reachable states of a shard (also after recovery), all requests and all later executions", "why_tests_cant": "Starvation shows only in long contended runs, and whether the reason given to a wounded transaction is right depends on which of many holders and waiters was displaced; tests use two or three tickets.", "anchors": ["src/parsec/runtime_locking_shard/impl.cpp:14-178", "src/parsec/runtime_locking_shard/impl.cpp:301-355", "src/parsec/runtime_locking_shard/interface.hpp:67-82", "src/parsec/agent/impl.cpp:38-130"]}
{"id": "C139", "title": "Parsec shard: the oldest transaction goes through", "statement": "A new transaction that is older than every transaction a shard knows, while none of them is prepared, goes through whatever locks the others hold or wait for: each of its read and write lock requests is answered before the request returns with the current value of the key, its prepare, commit and finish succeed, exactly the values it prepared are stored, all other values are as before, and the shard forgets its ticket.", "quantifier": "For all reachable states of a shard (also after recovery), all lists of locks of distinct keys and all updates of write-locked keys", "why_tests_cant": "A test shows one contended case; that wounding always clears the way, for every set of holders and waiters over any number of keys, is a statement about all states.", "anchors": ["src/parsec/runtime_locking_shard/impl.cpp:14-178", "src/parsec/runtime_locking_shard/impl.cpp:180-300", "src/parsec/runtime_locking_shard/impl.cpp:301-355", "src/parsec/runtime_locking_shard/impl.cpp:398-429", "src/parsec/runtime_locking_shard/impl.cpp:482-541"]}
{"id": "C140", "title": "Parsec broker: a shard that cannot be reached is reported", "statement": "A commit, rollback or finish that the broker accepts either is passed on to every shard that takes part in the transaction and still has to act, or, if the request to one of them cannot be sent, the callback is called with shard_unreachable before the request returns. The same holds for the commit requests that follow the last answer to prepare. It never happens that a shard was not asked and the caller is left waiting.", "quantifier": "For all states of the broker, transactions, numbers of shards, iteration orders and shards that cannot be reached", "why_tests_cant": "The loop stops at one of many shards in an order that depends on a hash map; tests use shards that are all reachable.", "anchors": ["src/parsec/broker/impl.cpp:223-307", "src/parsec/broker/impl.cpp:376-490", "src/parsec/broker/impl.cpp:492-650"]}
{"id": "C141", "title": "Parsec payment contract: money is neither made nor lost and no payment is made twice", "statement": "A payment of the Lua contract that is signed, in order and covered goes through; one that goes through is signed by the payer and moves exactly its value from the payer to the payee. What all accounts have together never changes, no balance becomes negative, and the payments of one payer that go through have increasing sequence numbers, so that none is made twice. A wallet that knows its account has its payments accepted and knows its account afterwards.", "quantifier": "For all accounts, balances, payments and sequences of payments", "why_tests_cant": "The tests make a few payments between two accounts; a payment to oneself, balances of 2^63 and the end of the sequence numbers do not occur in them.", "anchors": ["scripts/gen_bytecode.lua:1-64", "tools/bench/parsec/lua/wallet.cpp:33-131", "src/parsec/agent/runners/lua/impl.cpp:210-270"]}
{"id": "C142", "title": "Listening for connections", "statement": "Listening succeeds exactly if one of the addresses of the host can be used; the first such address is used and no other descriptor is left open. Connections are handed on in the order in which they arrive, each once; every connection that arrives before close is accepted, and after close the accepting thread ends.", "quantifier": "For all outcomes of the system calls, all arrivals of connections and all interleavings with close", "why_tests_cant": "Failures of socket, bind, select and accept at a given moment cannot be brought about in a test.", "anchors": ["src/util/network/tcp_listener.cpp:11-53", "src/util/network/socket_selector.cpp:16-64", "src/util/network/connection_manager.cpp:13-38", "src/util/network/connection_manager.cpp:184-200"]}
{"id": "C143", "title": "Blocks, logs, digests and fees read over HTTP", "statement": "eth_getBlockTransactionCountByNumber tells how many transactions the block has, eth_getTransactionByBlockNumberAndIndex describes its transaction, both for a number and for 'latest'; eth_getLogs answers with exactly the logs found for the addresses and blocks which have one of the topics, in their order; eth_decodeRawTransaction describes the transaction which was encoded; web3_sha3 gives the digest of the bytes; eth_feeHistory gives as many blocks as were asked for, of which the last is the block that was named.", "quantifier": "all block numbers and 'latest', all queries with lists of addresses and topics in a range which is not too large, all logs found, all transactions and bytes, all counts", "why_tests_cant": "All texts, ranges and logs; a test sees a few answers and compares some fields.", "anchors": ["src/parsec/agent/runners/evm/http_server.cpp:268-281", "src/parsec/agent/runners/evm/http_server.cpp:308-358", "src/parsec/agent/runners/evm/http_server.cpp:560-825", "src/parsec/agent/runners/evm/http_server.cpp:948-992", "src/parsec/agent/runners/evm/http_server.cpp:1074-1241"]}
