{"id": "C01", "title": "General natural-number codec round-trips", "statement": "Encoding any unsigned integer with the JAM variable-length codec and decoding the bytes followed by arbitrary further input returns exactly that integer and leaves exactly the further input unread; the encoding is never empty, never longer than 9 bytes, has the length reported by size_hint, and no encoding is a proper prefix of another.", "quantifier": "every u64 value (and every narrower unsigned type it fits), every byte suffix", "why_tests_cant": "There are 2^64 values and the encoder has eight length classes with boundaries at powers of 2^7; a test samples a few values, and prefix-freeness is a statement about all pairs.", "anchors": ["codec/fr-codec/src/lib.rs:integer_encode_to", "codec/fr-codec/src/lib.rs:integer_decode", "codec/fr-codec/src/lib.rs:integer_size_hint"]}
{"id": "C02", "title": "Variable-length codec accepts only canonical encodings", "statement": "A byte string that decodes to an integer is the encoding of that integer, so that two different byte strings never denote the same value.", "quantifier": "every byte string of any length given to the integer decoder", "why_tests_cant": "The accepted inputs are an infinite set; a test would have to guess the one non-minimal form a lax decoder accepts.", "anchors": ["codec/fr-codec/src/lib.rs:integer_decode"]}
{"id": "C03", "title": "Fixed-width integer codec round-trips and rejects overflow", "statement": "Encoding a value in n little-endian bytes succeeds exactly when it is below 2^(8n) (n at most 8), yields exactly n bytes, and decoding them followed by anything returns the value and the rest; out-of-range values and sizes are errors, never truncation.", "quantifier": "every unsigned value, every width n, every suffix", "why_tests_cant": "Range checks at every width boundary and every suffix form an unbounded family of cases.", "anchors": ["codec/fr-codec/src/lib.rs:JamEncodeFixed", "codec/fr-codec/src/lib.rs:JamDecodeFixed"]}
{"id": "C04", "title": "Composite codecs round-trip", "statement": "Options, tuples, length-prefixed sequences, size-limited sequences, sorted maps and bit sequences of any self-delimiting element type decode back to the encoded value and leave the rest of the input untouched, at any nesting depth; a length prefix over the declared limit is rejected before any element is read.", "quantifier": "every element codec that round-trips, every value, every length and nesting, every suffix", "why_tests_cant": "Element types, lengths and nesting depths are unbounded; round-trip tests exercise fixed example values.", "anchors": ["codec/fr-codec/src/lib.rs:JamEncode", "codec/fr-codec/src/lib.rs:JamDecode", "common/limited-vec/src/lib.rs"]}
{"id": "C05", "title": "Bounded and fixed-size vectors keep their bound", "statement": "Through any sequence of pushes, extends, shift-pushes, removals and decodes a size-limited vector never holds more than its maximum; a rejected operation leaves it unchanged; shift-push keeps exactly the most recent MAX elements in arrival order and hands back the evicted one.", "quantifier": "every operation sequence, every maximum, every element type", "why_tests_cant": "The property is about every history of operations; tests run a handful of fixed histories.", "anchors": ["common/limited-vec/src/lib.rs:LimitedVec"]}
{"id": "C06", "title": "Merkle justifications verify for every leaf", "statement": "For a well-balanced tree over any non-empty list of items and any index in range, folding the produced co-path over the item reproduces the root; for a constant-depth tree the same holds after padding, all paths have the same length, and if the hash is collision-free no other leaf value can be justified at that index.", "quantifier": "every item list, every index, every page size exponent", "why_tests_cant": "List lengths and indices are unbounded and the split is uneven for non powers of two; tests check small trees.", "anchors": ["merkle/src/common.rs:node", "merkle/src/common.rs:trace", "merkle/src/well_balanced_tree.rs", "merkle/src/constant_depth_tree.rs"]}
{"id": "C07", "title": "Mountain range append behaves as a binary counter over perfect trees", "statement": "After appending any sequence of n leaves, slot i of the range is occupied exactly when bit i of n is set, and its hash is the perfect-binary-tree root of the corresponding consecutive block of 2^i leaves, so the range depends only on the leaf sequence and can be extended incrementally forever.", "quantifier": "every sequence of appended leaves, of any length", "why_tests_cant": "Carry chains of every length must be right; tests append a few leaves.", "anchors": ["merkle/src/mmr.rs:append", "merkle/src/mmr.rs:super_peak"]}
{"id": "C08", "title": "Shuffle is a permutation", "statement": "Shuffling a list by any sequence of random numbers at least as long as the list returns a rearrangement of exactly the same elements, every element once.", "quantifier": "every list of any length, every random sequence", "why_tests_cant": "n! outcomes per length; tests compare a few vectors.", "anchors": ["extrinsics/src/utils/shuffle.rs:shuffle"]}
{"id": "C09", "title": "Guarantor assignment is balanced at every slot", "statement": "For every entropy and every timeslot each core is assigned the same number of validators (VALIDATOR_COUNT/CORE_COUNT), and rotating the assignment permutes cores without changing that count.", "quantifier": "every entropy-derived random sequence, every timeslot, every pair of core/validator counts dividing evenly", "why_tests_cant": "2^256 entropies and unbounded timeslots.", "anchors": ["extrinsics/src/utils/guarantor_rotation.rs", "extrinsics/src/utils/shuffle.rs"]}
{"id": "C10", "title": "PVM arithmetic instructions compute their specified functions", "statement": "For every operand value each arithmetic, shift, comparison, division, remainder and bit-counting instruction returns the mathematically specified result modulo 2^64 (sign-extended for 32-bit forms), including division by zero and the overflow case.", "quantifier": "every pair of 64-bit register values and every immediate", "why_tests_cant": "2^128 operand pairs per opcode; the interesting cases are isolated corners such as the most negative value.", "anchors": ["pvm/pvm-core/src/program/instruction/set.rs", "pvm/pvm-core/src/utils.rs"]}
{"id": "C11", "title": "PVM memory is a protected byte map", "statement": "A successful write changes exactly the written range and a subsequent read of any range returns the latest written bytes; reads never change memory; an access touching any page without permission fails with no effect; read-only pages keep their content under any sequence of program accesses.", "quantifier": "every sequence of reads, writes and access changes, at any address and length", "why_tests_cant": "Histories, page boundaries and overlapping ranges are unbounded.", "anchors": ["pvm/pvm-core/src/state/memory.rs"]}
{"id": "C12", "title": "PVM execution is bounded by gas", "statement": "Every program executed without host calls stops within its initial gas many instructions, gas never increases, each executed instruction is charged at least one unit, and the reported gas used never exceeds the limit.", "quantifier": "every program, every memory, every register file, every gas limit", "why_tests_cant": "Termination of an arbitrary program is a statement about infinitely many programs and unboundedly long runs.", "anchors": ["pvm/pvm-core/src/interpreter/mod.rs:invoke_general", "pvm/pvm-core/src/gas/mod.rs", "pvm/pvm-interface/src/invoke.rs:invoke_with_args"]}
{"id": "C13", "title": "PVM control flow only reaches basic-block starts", "statement": "A jump, branch or dynamic jump taken by any program lands only on the start of a basic block, or the program panics (or halts at the halt address); execution started at an instruction boundary never executes from the middle of an instruction.", "quantifier": "every program blob and bitmask, every jump table, every register state and step count", "why_tests_cant": "Adversarial programs are unbounded; a test can only try some jump targets.", "anchors": ["pvm/pvm-core/src/program/loader.rs", "pvm/pvm-core/src/program/instruction/set.rs:djump", "pvm/pvm-core/src/interpreter/mod.rs"]}
{"id": "C14", "title": "Standard program memory regions are disjoint and in range", "statement": "Whenever the size check admits a program, the read-only data, heap, stack and argument regions built for it are pairwise disjoint, inside the 32-bit space, and above the forbidden low zone.", "quantifier": "every formatted program and argument length admitted by the check", "why_tests_cant": "All combinations of four 24-bit sizes.", "anchors": ["pvm/pvm-interface/src/pvm.rs:setup_memory_layout", "pvm/pvm-core/src/program/types/formatted_program.rs:is_program_size_valid"]}
{"id": "C15", "title": "Accumulation gas admission takes the maximal affordable prefix", "statement": "The number of reports admitted for a gas budget is the largest i such that the first i reports' total accumulation gas stays within the budget; the admitted gas never exceeds the budget.", "quantifier": "every list of reports and digests, every budget", "why_tests_cant": "Report lists are unbounded and the interesting inputs sit at the exact boundary.", "anchors": ["pvm/pvm-invocation/src/accumulate/pipeline.rs:max_processable_reports"]}
{"id": "C16", "title": "Reports accumulate only after their dependencies", "statement": "The scheduled report sequence contains a report only after all its dependencies were accumulated earlier in the sequence or in history, never repeats a report, contains only offered or queued reports, and leaves behind only reports with an unmet dependency.", "quantifier": "every dependency graph, including cycles and missing packages, every queue and history", "why_tests_cant": "Arbitrary dependency graphs; tests cover a few small DAGs.", "anchors": ["pvm/pvm-invocation/src/accumulate/utils.rs"]}
{"id": "C17", "title": "Preimage request life cycle", "statement": "Through any sequence of solicit, forget, provide and integrate operations a request's timeslot list stays at most three long and non-decreasing, follows requested -> available -> unavailable -> re-available, is removed only when never available or unavailable long enough, and a preimage is held exactly while its request says so.", "quantifier": "every operation sequence with non-decreasing timeslots", "why_tests_cant": "Histories are unbounded; expiry depends on slot distances.", "anchors": ["pvm/pvm-host/src/host_functions/accumulate/mod.rs:host_solicit", "pvm/pvm-host/src/host_functions/accumulate/mod.rs:host_forget", "transition/src/state/services.rs"]}
{"id": "C18", "title": "Historical preimage lookup matches availability intervals", "statement": "A historical lookup returns a preimage at slot t exactly when t lies in one of the availability intervals recorded by the request, and for every slot within the retention period later calls, provided preimages and integrated preimages never change the answer, so all nodes evaluating a past work-package agree.", "quantifier": "every recorded request state, every past and present slot, every later operation", "why_tests_cant": "All pairs of slots and histories.", "anchors": ["state/src/manager.rs:lookup_historical_preimage"]}
{"id": "C19", "title": "Service storage footprint is exact", "statement": "After any sequence of storage writes, solicitations and forgets the item and octet counters stored in the account equal the counts recomputed from its actual contents, hence the threshold balance is the one required by the current contents.", "quantifier": "every operation sequence on one account", "why_tests_cant": "Incremental counters drift only after particular histories.", "anchors": ["state/src/types/services.rs:AccountFootprintDelta", "pvm/pvm-host/src/host_functions/general/mod.rs:host_write"]}
{"id": "C20", "title": "Host calls never leave a service below its threshold and conserve tokens", "statement": "No write, solicit, new-service or transfer call commits a caller balance below its threshold, and the total of balances plus tokens in flight is unchanged by transfers and service creation.", "quantifier": "every partial state, caller, arguments and call sequence", "why_tests_cant": "Adversarial service programs choose any sequence of calls.", "anchors": ["pvm/pvm-host/src/host_functions/accumulate/mod.rs", "pvm/pvm-host/src/host_functions/general/mod.rs"]}
{"id": "C21", "title": "Ejecting a service never duplicates tokens", "statement": "Ejecting a service moves its balance to the ejecting service exactly once: afterwards the ejected account no longer exists anywhere and total tokens are unchanged.", "quantifier": "every sandbox state and call sequence, including transfers received earlier in the block", "why_tests_cant": "The failing histories need a particular order of transfer and eject across accumulation rounds.", "anchors": ["pvm/pvm-host/src/host_functions/accumulate/mod.rs:host_eject", "pvm/pvm-host/src/context/partial_state.rs:eject_account"]}
{"id": "C22", "title": "New service identifiers are fresh and public", "statement": "The identifier chosen for a newly created service by an unprivileged caller is at least 2^16, below 2^32-2^8, and not that of an existing account; after creation the next candidate is again in range and free.", "quantifier": "every current account set, every seed and creation sequence", "why_tests_cant": "Wrap-around of the id ring and collisions with existing ids cannot be enumerated.", "anchors": ["pvm/pvm-host/src/context/mod.rs:rotate_new_account_id", "pvm/pvm-host/src/context/mod.rs:initialize_new_service_id"]}
{"id": "C23", "title": "Failed accumulation rolls back to the last checkpoint", "statement": "If a service invocation panics or runs out of gas its committed effect is exactly the state at its last checkpoint call (or at its start), and if it halts normally the effect is its full state.", "quantifier": "every sequence of host-call effects and checkpoints followed by any exit", "why_tests_cant": "All call sequences and exit points.", "anchors": ["pvm/pvm-host/src/context/mod.rs:AccumulateHostContextPair", "pvm/pvm-invocation/src/accumulate/mod.rs"]}
{"id": "C24", "title": "Privileges change only at the request of their holders", "statement": "Whatever programs the services of an accumulation round run, every change of the manager, the always-accumulate set, the assigners, the designate, the registrar, the authorizer queues or the staging validator set that the round commits was requested by a service entitled to it at the start of the round, with conflicts resolved as the Gray Paper's R(o, a, b).", "quantifier": "every set of services, programs, call sequences and arguments in a round", "why_tests_cant": "Every caller identity and privilege configuration, including services that bless themselves in their own context.", "anchors": ["pvm/pvm-host/src/host_functions/accumulate/mod.rs", "pvm/pvm-invocation/src/accumulate/pipeline.rs:merge_partial_state_change"]}
{"id": "C25", "title": "Ticket accumulator keeps exactly the lowest tickets", "statement": "After any sequence of additions the accumulator holds the EPOCH_LENGTH smallest tickets offered so far (in identifier order), in a form independent of arrival order, and every ticket of an accepted extrinsic is retained.", "quantifier": "every sequence of tickets and extrinsics with distinct identifiers, every epoch length", "why_tests_cant": "Arrival orders are factorial in number.", "anchors": ["state/src/types/safrole.rs:TicketAccumulator", "extrinsics/src/validation/tickets.rs"]}
{"id": "C26", "title": "Slot sealer series is a permutation of the winning tickets", "statement": "The outside-in ordering used to assign winning tickets to slots uses every winning ticket exactly once, so each slot of the epoch has exactly one sealer; fallback keys always come from the active validators.", "quantifier": "every list of winning tickets of any length, every entropy", "why_tests_cant": "Lengths and contents are unbounded; parity off-by-one errors show only at specific lengths.", "anchors": ["state/src/types/safrole.rs:outside_in_vec", "state/src/types/safrole.rs:generate_fallback_keys"]}
{"id": "C27", "title": "Dispute verdict sets stay disjoint and final", "statement": "Over any history of accepted dispute extrinsics no work report is in two of the good, bad and wonky sets, no verdict is ever changed or recorded twice, and an offender once recorded stays recorded exactly once.", "quantifier": "every history of accepted dispute extrinsics", "why_tests_cant": "A property of all histories.", "anchors": ["extrinsics/src/validation/disputes.rs", "state/src/types/disputes.rs", "transition/src/state/disputes.rs"]}
{"id": "C28", "title": "Availability needs a two-thirds supermajority of distinct validators", "statement": "A pending report becomes available exactly when more than two thirds of the validators, each counted at most once, assure its core in the block; any two available quorums overlap in more than one third of validators.", "quantifier": "every accepted assurance list, every core", "why_tests_cant": "All subsets of validators.", "anchors": ["block/src/types/extrinsics/assurances.rs:available_core_indices", "extrinsics/src/validation/assurances.rs"]}
{"id": "C29", "title": "At most one pending report per core and no silent loss", "statement": "Through any sequence of block steps a core holds at most one pending report; a guarantee is never placed over a live one; a report leaves only by becoming available, timing out or being judged against.", "quantifier": "every sequence of blocks", "why_tests_cant": "Histories.", "anchors": ["transition/src/state/reports.rs", "state/src/types/reports.rs"]}
{"id": "C30", "title": "State cache transactions: commit and rollback", "statement": "Through any sequence of reads, adds, updates, removals and clean-entry evictions between commits, reads see the latest uncommitted write, a rollback restores exactly the last committed state, a commit makes exactly the visible state durable, and pre-state reads return the last committed value.", "quantifier": "every operation sequence, every eviction schedule", "why_tests_cant": "Eviction timing and operation orders are unbounded.", "anchors": ["state/src/cache.rs", "state/src/manager.rs"]}
{"id": "C31", "title": "Database write-through cache is coherent", "statement": "Under any sequence of puts, deletes, batch commits and cache evictions a read returns the last durably written value.", "quantifier": "every operation sequence, every eviction schedule", "why_tests_cant": "Eviction schedules cannot be enumerated.", "anchors": ["db/src/core/cached_db.rs"]}
{"id": "C32", "title": "Incremental state root equals full merklization", "statement": "After committing any set of added, updated and removed entries the stored trie and root equal the Merklization of the resulting key-value map computed from scratch, regardless of the order in which the entries are processed.", "quantifier": "every key-value map, every change set, every processing order, every commit history", "why_tests_cant": "Key sets and prefix structures are unbounded; the tests fuzz some.", "anchors": ["state/src/merkle_interface/manager.rs", "state/state-merkle-v2/src"]}
{"id": "C33", "title": "Trie node encoding round-trips", "statement": "Every leaf (embedded or hashed) and branch node occupies exactly 512 bits and decodes back to the same node; leaf and branch encodings never coincide.", "quantifier": "every key, value up to 32 bytes, hash", "why_tests_cant": "2^500 nodes.", "anchors": ["state/state-merkle-v2/src/types.rs"]}
{"id": "C34", "title": "State keys of different components never coincide", "statement": "The storage keys of protocol components, of service metadata and of different services' entries are pairwise distinct, and the service id can be recovered from any service entry key.", "quantifier": "all component indices, all service identifiers, all entry hashes", "why_tests_cant": "2^32 services.", "anchors": ["state/src/state_utils.rs"]}
{"id": "C35", "title": "Ancestor set retains the most recent headers", "statement": "After any sequence of additions the ancestor set holds exactly the greatest (by slot) min(n, capacity) distinct headers added, and membership answers agree with that.", "quantifier": "every addition sequence and capacity", "why_tests_cant": "Arrival orders.", "anchors": ["block/src/ancestors.rs"]}
{"id": "C36", "title": "Sandboxed account views refine the global state", "statement": "Reads through a service's sandbox return the latest sandboxed write or else the global value; applying the sandbox to global state yields exactly that view for every key; nothing else changes.", "quantifier": "every sequence of sandbox inserts, updates and removals, every initial global state", "why_tests_cant": "Histories of mixed operations.", "anchors": ["pvm/pvm-host/src/context/partial_state.rs", "transition/src/state/services.rs"]}
{"id": "C37", "title": "Authorizer pool stays bounded and consumes used authorizers", "statement": "Each block removes the used authorizers from each core's pool, appends the queue's entry for the slot, and keeps at most 8 authorizers, newest retained.", "quantifier": "every block sequence, pool and queue content", "why_tests_cant": "Histories.", "anchors": ["transition/src/state/authorizer.rs"]}
{"id": "C38", "title": "Recent block history is bounded and root-linked", "statement": "The history contains the last 8 blocks in order; the state root recorded for each block except the newest is the prior state root announced by its successor.", "quantifier": "every block sequence", "why_tests_cant": "Histories.", "anchors": ["transition/src/state/history.rs", "state/src/types/history.rs"]}
{"id": "C39", "title": "Epoch entropy and validator sets rotate consistently", "statement": "On any slot increase, entropy and validator sets rotate exactly once per epoch boundary crossing and are unchanged (except current entropy accumulation) within an epoch.", "quantifier": "every slot sequence", "why_tests_cant": "Histories.", "anchors": ["transition/src/state/entropy.rs", "transition/src/state/validators.rs"]}
{"id": "C40", "title": "Ring-verifier cache returns the verifier of the requested validator set", "statement": "The ring verifier used to check tickets is always the one generated from the validator set the caller asked for.", "quantifier": "every history of cache rotations, staging updates and requests", "why_tests_cant": "Stale-cache histories.", "anchors": ["state/src/manager.rs:get_or_generate_curr_ring_context", "transition/src/ring_cache.rs"]}
{"id": "C41", "title": "Host-call data windows are clamped", "statement": "For data-returning host calls the bytes written are exactly the requested window clamped to the data, the returned length is the full length, and nothing is written on failure.", "quantifier": "every data length, offset, length argument and memory", "why_tests_cant": "All 2^192 combinations of offsets.", "anchors": ["pvm/pvm-host/src/host_functions/general/mod.rs"]}
{"id": "C42", "title": "Loading arbitrary code never crashes the node", "statement": "Loading any octet string as PVM code yields a program or an error, and every code and bitmask of equal length is a program, as in the Gray Paper.", "quantifier": "every octet string, code and bitmask", "why_tests_cant": "Malformed code no compiler emits.", "anchors": ["pvm/pvm-core/src/program/loader.rs", "pvm/pvm-core/src/program/instruction/mod.rs"]}
{"id": "C43", "title": "The accumulation queue and history are sliding windows", "statement": "Across blocks with any slot gaps, the waiting queue holds exactly the entries queued in the last E slots with accumulated packages removed, skipped slots are empty, entries are considered oldest first, and the accumulation history holds the newest E sets.", "quantifier": "every ring buffer content, epoch length, slot gap and set of accumulated packages", "why_tests_cant": "Off-by-one errors in circular indices show only for particular gaps.", "anchors": ["transition/src/state/accumulate.rs", "state/src/types/accumulate.rs"]}
{"id": "C44", "title": "Parallel accumulations are isolated and merge without conflict", "statement": "In a merged round every account ends with the metadata its own service left it, or the one service that created or ejected it, or unchanged; a round in which two services create or eject the same identifier is never merged.", "quantifier": "every round: any number of services, sandboxes and results", "why_tests_cant": "Interleavings and collisions of many services.", "anchors": ["pvm/pvm-invocation/src/accumulate/pipeline.rs:merge_partial_state_change", "pvm/pvm-invocation/src/accumulate/pipeline.rs:accumulate_parallel"]}
{"id": "C45", "title": "No work report is placed twice", "statement": "Along a chain with distinct header hashes no work package is reported twice with the same anchor, and no package is reported again within the remembered blocks, twice in one block, while pending, or while known to accumulation.", "quantifier": "every chain of blocks of any length, any number of cores and guarantees", "why_tests_cant": "Replays of an old report after it has left the remembered window need long chains.", "anchors": ["extrinsics/src/validation/guarantees.rs:validate_work_report", "transition/src/state/history.rs"]}
{"id": "C46", "title": "Guarantees are accepted exactly when properly guaranteed", "statement": "The guarantees of a block are accepted exactly when each report is signed by two or three distinct unbanned validators assigned to its core in the current or previous rotation, is authorized by the core's pool, anchored in a remembered block, new, within its limits, and has its dependencies met; the reporters returned are exactly the signers.", "quantifier": "every extrinsic, state, signature scheme, hash function and constants", "why_tests_cant": "Combinations of twenty conditions over unbounded lists.", "anchors": ["extrinsics/src/validation/guarantees.rs:validate", "extrinsics/src/validation/guarantees.rs:validate_credential"]}
{"id": "C47", "title": "Blocks and work data have one wire form, bound by the header hash", "statement": "Blocks, headers, extrinsics, work reports and work packages are written in the layout of the Gray Paper and read back exactly; the header hash determines the whole block, extrinsics and work reports included, up to explicit hash collisions; and every value of the types has its own encoding.", "quantifier": "every block, report and package the types can hold, every hash function and chain constants", "why_tests_cant": "Aliasing pairs and field-order errors in rarely used fields are not sampled.", "anchors": ["block/src/types/block.rs", "block/src/types/extrinsics/mod.rs:hash", "common/src/types/workloads/work_report.rs", "common/src/types/workloads/work_package.rs"]}
{"id": "C48", "title": "Decoding hostile bytes never crashes the node", "statement": "Decoding any octet string received from the network or from a service as a block, work package, work report or service code returns a value or an error.", "quantifier": "every octet string", "why_tests_cant": "Length prefixes near 2^63 are one in 2^60 of random inputs.", "anchors": ["codec/fr-codec/src/lib.rs:decode", "common/src/types/mod.rs:ByteSequence", "state/src/types/services.rs:AccountCode", "network/src/streams/ce_streams/block_request.rs"]}
{"id": "C49", "title": "Octet strings are carried as raw bytes", "statement": "The authorization trace handed to services in accumulation operands and the metadata of service code are serialized as a length and the raw octets, as in the Gray Paper.", "quantifier": "every trace, metadata and code", "why_tests_cant": "Test traces and metadata are ASCII.", "anchors": ["pvm/pvm-types/src/invoke_args.rs:AccumulateOperand", "state/src/types/services.rs:AccountCode", "codec/fr-codec/src/lib.rs"]}
{"id": "C50", "title": "Every instruction does what the Gray Paper says, from its bytes to the new state", "statement": "For every loaded program and machine state, one step of the interpreter reads the instruction's operands from the code as the Gray Paper prescribes and leaves exactly the registers, memory, program counter, gas and outcome of the Gray Paper's step; hence so does a run of any length.", "quantifier": "every program, instruction, operand encoding, register and memory state, run of any length", "why_tests_cant": "139 instructions times operand lengths, register clamps, sign extensions and page boundaries; test vectors cover a few operands of each.", "anchors": ["pvm/pvm-core/src/program/instruction/mod.rs:from_inst_blob", "pvm/pvm-core/src/program/instruction/set.rs", "pvm/pvm-core/src/interpreter/mod.rs:invoke_general", "pvm/pvm-core/src/state/state_change.rs:apply_state_change"]}
{"id": "C51", "title": "The refinement host functions do what the Gray Paper says", "statement": "historical_lookup, export, machine, peek, poke, pages, invoke and expunge return the Gray Paper's results, and change the inner machines, the exported segments and the caller's memory and registers exactly as it prescribes; an inner machine runs by the paper's instruction set with its own memory.", "quantifier": "every machine state, context, program and sequence of calls", "why_tests_cant": "Programs that themselves make and run programs are hard to generate; no test runs an inner machine that uses memory.", "anchors": ["pvm/pvm-host/src/host_functions/refine/mod.rs", "pvm/pvm-host/src/inner_vm.rs:InnerPVM", "pvm/pvm-core/src/state/memory.rs:Memory"]}
{"id": "C52", "title": "Inner machines are isolated and exports only grow, within their limit", "statement": "Along every sequence of refinement host calls: a call changes no inner machine but the one it names, never its code; numbers of machines are never reused; exported segments are only appended, are all 4104 octets long, and never exceed 3072 together with those of earlier items; a call that ends the program changes nothing.", "quantifier": "every sequence of calls from every machine state, and every behaviour of the other host functions", "why_tests_cant": "Interference needs long sequences of calls on several machines.", "anchors": ["pvm/pvm-host/src/host_functions/refine/mod.rs", "pvm/pvm-host/src/context/mod.rs:RefineHostContext"]}
{"id": "C53", "title": "On-chain statistics count what happened", "statement": "After any chain of blocks each validator's current and previous entries count exactly the blocks, tickets, preimages, octets, guarantees and assurances of the epoch concerned; core and service entries hold exactly the sums over the latest block, independent of map iteration order; the transition panics only on indices outside the validator set or the cores.", "quantifier": "every chain of blocks and epoch changes, every validator, core and service", "why_tests_cant": "Test vectors cover single blocks; sums across epochs, overflow and segment counts above zero are not sampled.", "anchors": ["transition/src/state/statistics.rs:transition_onchain_statistics", "state/src/types/statistics.rs:OnChainStatistics", "pvm/pvm-types/src/stats.rs:AccumulateStats"]}
{"id": "C54", "title": "Erasure-coded data is recovered from any sufficient set of chunks", "statement": "Encoding any data yields the systematic column-wise coding of the Gray Paper over the padded data, and from any k of the n chunks recovery returns exactly the padded data; with fewer than k chunks it reports so.", "quantifier": "every data, every k and n, every set of lost chunks, every code that corrects erasures", "why_tests_cant": "There are binomial(1023, 342) sets of surviving chunks; tests drop a few.", "anchors": ["common/erasure-coding/src/lib.rs:erasure_encode", "common/erasure-coding/src/lib.rs:erasure_recover", "common/src/utils/zero_pad.rs"]}
{"id": "C55", "title": "The availability specification commits to the package's data", "statement": "Every page of the paged proofs fits its segment, reads back and leads to the segment root; a page that leads to the segment root holds the right leaf hashes, and a validator's share that leads to the erasure root is the right share, up to explicit hash collisions; the specification's fields are those of the Gray Paper.", "quantifier": "every bundle, list of segments of any length, hash function and chain constants", "why_tests_cant": "Forged proofs and large exports are not sampled; the code itself asks whether the page always fits.", "anchors": ["pvm/pvm-invocation/src/refine/avail_spec.rs"]}
{"id": "C56", "title": "The auditable bundle reads back and has the Gray Paper's layout", "statement": "Encoding a work package with its extrinsics, imported segments and justifications and decoding it gives it back, whatever follows, and the encoding is that of the Gray Paper.", "quantifier": "every package and data of matching shape", "why_tests_cant": "No test encodes a bundle with octets of 128 or more.", "anchors": ["pvm/pvm-invocation/src/refine/auditable_bundle.rs"]}
{"id": "C57", "title": "Work packages are limited as the Gray Paper says", "statement": "The validations of a work package accept exactly the packages within the Gray Paper's limits on exports, imports, extrinsics, total size and gas; within them every count fits the fields of a work digest.", "quantifier": "every package and constants", "why_tests_cant": "Gas sums over 2^64 need two items of 2^63.", "anchors": ["common/src/types/workloads/work_package.rs:validate_data_references_count", "common/src/types/workloads/work_package.rs:validate_work_bundle_size", "common/src/types/workloads/work_package.rs:validate_gas_limits"]}
{"id": "C58", "title": "Work reports are computed as the Gray Paper says", "statement": "A computed report carries the authorizer's trace and one digest per item in order, with the item's fields; refinement is called with the item's index and the exports declared before it; results and exports are those of the Gray Paper's function, and trace and outputs together stay within the size limit.", "quantifier": "every package and every behaviour of authorization and refinement", "why_tests_cant": "No test computes a report; failing items in the middle of a package are the interesting cases.", "anchors": ["pvm/pvm-invocation/src/refine/pipeline.rs:compute_work_report", "pvm/pvm-invocation/src/refine/pipeline.rs:work_item_to_digest"]}
{"id": "C59", "title": "fetch serves the Gray Paper's data in every invocation", "statement": "In authorization, refinement and accumulation, for every selector and indices, fetch gives the octets the Gray Paper gives (constants, entropy, trace, extrinsics, imports, package and its parts, inputs) and NONE exactly when the paper does.", "quantifier": "every package, import list, extrinsic data, input list, constants and register contents", "why_tests_cant": "Sixteen selectors with two indices in three contexts; no test compares the octets with the layout.", "anchors": ["pvm/pvm-host/src/host_functions/general/mod.rs:host_fetch", "common/src/constants/constants_encoder.rs", "common/src/types/workloads/work_package.rs:encode_for_fetch_hostcall"]}
{"id": "C60", "title": "State components survive the state trie in the Gray Paper's layout", "statement": "For every component of the state (authorizer pools and queues, history, Safrole, disputes, entropy, validator sets, pending reports, time slot, privileges, statistics, ready queue, accumulated history, last outputs) and every service entry, saving gives the Gray Paper's octets and loading gives the component back; states agreeing in all entries are equal.", "quantifier": "every well-formed state, any sizes of its variable parts and any chain dimensions", "why_tests_cant": "A field read in another order or width shows only in components whose values differ in that field; tests load small fixed states.", "anchors": ["state/src/types", "state/src/state_utils.rs:StateKeyConstant", "state/src/manager.rs:retrieve_state_encoded"]}
{"id": "C61", "title": "Programs are invoked as the Gray Paper prescribes", "statement": "Standard program blobs are accepted exactly when they are the paper's layout; every host-call octet reaches its function or answers WHAT; the program cache answers what loading would; a program starts in the prescribed state and gas used and result are those of R; refinement and authorization give BAD, BIG or the result of the code run with the paper's arguments, gas and limits.", "quantifier": "every blob, octet, cache history, program, argument, gas limit and package within the format's bounds", "why_tests_cant": "A wrong host-call table entry, a stale cache entry or a shifted field in the program header shows only for programs that use it; tests run a few services.", "anchors": ["pvm/pvm-interface/src/invoke.rs", "pvm/pvm-core/src/program/types/formatted_program.rs", "pvm/pvm-invocation/src/refine/mod.rs", "pvm/pvm-invocation/src/is_authorized/mod.rs"]}
{"id": "C62", "title": "Importing blocks follows the chain rules", "statement": "A node at a point of a chain accepts exactly the blocks that satisfy the header rules and the transition there; the accepted blocks of any run form a chain with increasing slots whose last header hash determines its state, rejected blocks leave nothing but the ring cache, and authored blocks are accepted by every node at the same point.", "quantifier": "every state-transition function, hash and signature scheme, every node state, every sequence of blocks and times", "why_tests_cant": "A block that skips a check, or a state left behind by a rejected block or a failed authoring, appears only for hostile blocks or failures that the test vectors do not contain.", "anchors": ["node/src/roles/importer.rs", "node/src/roles/author.rs", "node/src/scheduler/chain_extension.rs", "block/src/header_db.rs", "state/src/types/timeslot.rs"]}
{"id": "C63", "title": "The fuzzing target answers for forks as if each block were imported alone", "statement": "In every session the target's replies are right: each block is judged and its root computed on its parent's state, finalised or staged, siblings do not influence each other, rejected blocks leave no trace, and the state for a hash is exactly the state after that block; a second start closes the session.", "quantifier": "every state-transition function, every earlier history of the target, every sequence of blocks and state requests, with and without forks and ancestors", "why_tests_cant": "Staging keeps uncommitted writes, ring caches and key sets apart per fork; a leak shows only in particular interleavings of siblings, invalid children and state requests.", "anchors": ["fuzz/src/fuzz_target.rs", "node/src/roles/importer.rs", "state/src/manager.rs"]}
{"id": "C64", "title": "The executor's concurrent tasks give the same result under every schedule", "statement": "For each group of tasks that the block executor spawns together, every interleaving of their reads, database fetches, cache insertions and changes ends with the same results and the same state as the tasks run one after another on the prior state, and no write is lost.", "quantifier": "every block input, every state of the cache and the database, every schedule of the tasks in the first, middle and last phases of a block", "why_tests_cant": "The outcome of a race depends on the thread scheduler and on what is cached; tests run with a warm cache and quiet machines and see one schedule.", "anchors": ["node/src/roles/executor.rs", "state/src/manager.rs", "state/src/cache.rs", "transition/src/state/validators.rs", "transition/src/state/reports.rs", "transition/src/state/services.rs", "extrinsics/src/validation/guarantees.rs"]}
{"id": "C65", "title": "The host functions of accumulation do what the Gray Paper says", "statement": "Each host call of an accumulating program, gas to provide with checkpoint and unknown numbers, returns the registers, memory writes, gas charge or panic the Gray Paper prescribes and changes the regular and the exceptional context exactly as it prescribes; sequences of calls run to their end without aborting.", "quantifier": "every call number, all registers, memories and gas between 10 and 2^63-2, every pair of contexts with sound and solvent accounts, every sequence of calls; on plain maps and on the sandbox the code keeps", "why_tests_cant": "The answer depends on the order of some twenty checks per function, on thresholds derived from everything an account holds, and on 64-bit registers narrowed to 32 bits; vectors exercise each check alone with ordinary values.", "anchors": ["pvm/pvm-host/src/host_functions/accumulate/mod.rs", "pvm/pvm-host/src/host_functions/general/mod.rs", "pvm/pvm-host/src/context/partial_state.rs", "pvm/pvm-host/src/context/mod.rs", "pvm/pvm-interface/src/invoke.rs"]}
{"id": "C66", "title": "Messages of the fuzzing protocol survive the socket and sessions answer in order", "statement": "Every message reads back from its frame however the stream is cut into pieces and whatever follows; a frame cut short is never read as a message; a whole session writes exactly the frames of the answers of the fork-handling target, in order; a session that fails leaves nothing behind for the next one.", "quantifier": "every message of the protocol, every sequence of messages, every division of the stream into pieces, every state of the target left by earlier sessions", "why_tests_cant": "Reads from a socket return arbitrary pieces and lengths come from the peer; tests write whole messages to a local socket and read them at once.", "anchors": ["fuzz/src/types.rs", "fuzz/src/utils.rs", "fuzz/src/fuzz_target.rs"]}
{"id": "C67", "title": "An announced block reaches the importer of the peer", "statement": "Every announced block is asked for, the node that holds it answers with exactly that block, and the answer is delivered to the importer; a node serves only blocks whose header and extrinsics have the hashes they are stored under; requests and announcements that are cut short or wrong do not disturb the others; of two nodes exactly one opens the connection.", "quantifier": "every header and block, every division of the streams into pieces, every history of authored and imported blocks, every pair of keys, every validator set", "why_tests_cant": "How QUIC cuts a stream into chunks depends on the network; tests run over the loopback with tiny validator sets and empty blocks, where everything arrives in one chunk below 1024 octets.", "anchors": ["network/src/streams/up_streams.rs", "network/src/streams/ce_streams/mod.rs", "network/src/streams/ce_streams/block_request.rs", "network/src/streams/ce_streams/responder.rs", "network/src/streams/stream_kinds.rs", "network/src/manager.rs", "network/src/utils.rs", "storage/src/node_storage.rs", "node/src/scheduler/chain_extension.rs"]}
{"id": "C68", "title": "Every slot has one author and its block is accepted", "statement": "The clock gives the slot of the time and the scheduler visits every slot once; what is predicted for a slot is what its block will find; the nodes agree on one author per slot, the one the Gray Paper's rule names; the block this author makes is accepted by every node at the same point, and the author ends in the same state as they do.", "quantifier": "every time and tick, every Safrole state and slot, every key, every chain of blocks within an epoch, every pair of nodes at one point, every block imported between the two phases of the author", "why_tests_cant": "Who authors depends on a prediction made before the transition, on clock readings some milliseconds apart and on a set of validators that changes only after epochs; tests author one block with a fixed slot, key and index and no importer beside it.", "anchors": ["clock/src/lib.rs", "node/src/scheduler/timeslot_scheduler.rs", "node/src/scheduler/chain_extension.rs", "node/src/roles/manager.rs", "transition/src/state_prediction/slot_sealers.rs", "transition/src/state_prediction/validator_sets.rs", "transition/src/state_prediction/entropy.rs", "node/src/jam_node/init.rs", "node/src/jam_node/runner.rs"]}
{"id": "C69", "title": "Work is accumulated only after guarantee and assurance, once and in order, over whole chains of blocks", "statement": "Over a chain of accepted blocks from the start: whatever is accumulated was guaranteed in an earlier block by two or three assigned validators who are no offenders and then assured by more than two thirds; no package is pending, waiting or accumulated twice; what leaves its core without being assured is never accumulated; dependencies come first; offenders leave all validator sets after three epochs; each component of the state depends only on the inputs the Gray Paper names; components keep their sizes, no block is refused for an internal reason and a block without extrinsics can always follow.", "quantifier": "every chain of blocks, every state of the right shape, all constants, every signature scheme and hash function, whatever executing services does", "why_tests_cant": "The steps read some components as they were before the block and some as they are now; a wrong choice shows only on chains with epoch changes, disputes and waiting reports together, while tests run one step or one block at a time.", "anchors": ["node/src/roles/executor.rs", "transition/src/state/reports.rs", "transition/src/state/accumulate.rs", "transition/src/state/safrole.rs", "transition/src/state/validators.rs", "transition/src/state/disputes.rs", "transition/src/state/timeslot.rs", "extrinsics/src/utils/guarantor_rotation.rs"]}
{"id": "C70", "title": "Accumulating a block is a finite sequence of faithful rounds", "statement": "Whatever the programs of the services, the accumulation of a block ends; it is a sequence of rounds in which exactly the existing services that are called or privileged run, once each, on one state, with all the gas and transfers meant for them; each round takes the longest prefix of reports that fits the gas left; the gas accounted never exceeds the block's limit plus what transfers brought, and without always-accumulate services the accounting never fails; a privilege, queue or staging set changes only by the word of the service entitled to it; tokens are neither made nor destroyed except those sent to services that do not exist.", "quantifier": "every block, state of the services, set of reports and always-accumulate services, every program of every service", "why_tests_cant": "How many rounds a block takes and which service may do what in which round depends on what the programs send each other; tests accumulate one or two rounds of cooperative services.", "anchors": ["pvm/pvm-invocation/src/accumulate/pipeline.rs", "pvm/pvm-invocation/src/accumulate/mod.rs", "pvm/pvm-invocation/src/accumulate/utils.rs", "pvm/pvm-host/src/context/mod.rs", "pvm/pvm-host/src/context/partial_state.rs", "transition/src/state/services.rs", "transition/src/state/privileges.rs"]}
{"id": "C71", "title": "Blocks keep every account consistent and solvent and never make tokens", "statement": "After the accumulation of a block is written back, footprints are still exact, every preimage was requested, every account can pay its deposit and the tokens held are those held before less what was sent to missing services; services that did not run keep their metadata or are ejected; this holds over histories of blocks of any length with preimages between them, provided no program fills an account beyond the counters, takes the identifier of a committed account or ejects one that runs in the block; programs without the calls write, new, eject, solicit and forget always meet this.", "quantifier": "every history of blocks, every state of consistent accounts holding less than 2^64 tokens, every program of every service within the named restriction", "why_tests_cant": "Footprints and balances drift only when several services, rounds and sandboxes interact and the sandboxes are then written back entry by entry; tests compare a few accounts after one block.", "anchors": ["pvm/pvm-invocation/src/accumulate/pipeline.rs", "pvm/pvm-invocation/src/accumulate/mod.rs", "pvm/pvm-host/src/context/partial_state.rs", "pvm/pvm-host/src/context/mod.rs", "transition/src/state/services.rs"]}
{"id": "C72", "title": "Over whole chains, services act only on proven work and every effect of a block comes from them", "statement": "An accepted block's accounts, privileges, queues, staged validators and outputs are exactly what rounds of service executions leave that take the reports the block accumulates; over a chain from the start, every report a service works on was guaranteed and assured before, no package is worked on twice and dependencies come first; a key becomes a validator only if the designate service staged it, two epochs before it is active; an authorizer is in a core's pool only if the core's assigner put it there; preimages enter only if they are in order and asked for; accounts stay consistent and no tokens are made; all sizes programs can influence stay right.", "quantifier": "every chain of blocks, every state, every program of every service, all constants, every signature scheme and hash function", "why_tests_cant": "Programs run inside the blocks and choose queues, validators, privileges and accounts of later blocks; whether a chain with executing services keeps the guarantees proved for its parts shows only over many blocks and epochs with adversarial programs, while tests execute single blocks of recorded traces.", "anchors": ["node/src/roles/executor.rs", "transition/src/state/services.rs", "transition/src/state/privileges.rs", "extrinsics/src/validation/preimages.rs", "extrinsics/src/validation/guarantees.rs", "pvm/pvm-invocation/src/accumulate/pipeline.rs", "pvm/pvm-host/src/host_functions/accumulate/mod.rs"]}
{"id": "C73", "title": "A block's accumulation fails only for the known causes", "statement": "An error in the accumulation of a block comes from a round whose always-accumulate gas is beyond the budget, from two services that create or eject the same account, or from a due service whose stored code does not decode or load, that finds no identifier free, or whose program reaches one of six offending configurations (access past the end of memory, more heap than there is, a gas debt beyond 2^63, a transfer with 2^63 - 10 gas or more, a new account with no identifier left, an exit whose register 7 is no address); no host call fails otherwise. Each of the program's offences does abort a block, and broken code of a privileged or always-accumulate service stops accumulation, or the chain, for good.", "quantifier": "every block, every program of every service, all accounts that are consistent, every round of the block", "why_tests_cant": "Which of the dozens of fallible calls inside host functions, memory and merging can actually fail depends on invariants over all earlier rounds; a test sees one failing input at a time and cannot show that there is no further one.", "anchors": ["pvm/pvm-invocation/src/accumulate/pipeline.rs", "pvm/pvm-invocation/src/accumulate/mod.rs", "pvm/pvm-host/src/host_functions/accumulate/mod.rs", "pvm/pvm-interface/src/invoke.rs", "pvm/pvm-core/src/state/memory.rs", "pvm/pvm-core/src/state/vm_state.rs"]}
{"id": "C74", "title": "Along a chain preimages lie under their hashes and request histories are in order", "statement": "If every stored preimage lies under its hash and every request history has at most three slots, in order and not in the future, then both hold after any chain of accepted blocks, whatever the services execute and whatever preimages the blocks bring; and the work of every accepted guarantee is for an existing service, names the code hash in its account and comes with the gas it asks for.", "quantifier": "every chain of blocks, every state with consistent accounts, every careful program, every hash function", "why_tests_cant": "The invariants must survive every host call of every program in every round, the merging of results and the preimages of each block; a violation could need a rare interleaving over many blocks.", "anchors": ["node/src/roles/executor.rs", "transition/src/state/services.rs", "extrinsics/src/validation/preimages.rs", "extrinsics/src/validation/guarantees.rs", "pvm/pvm-host/src/host_functions/accumulate/mod.rs", "state/src/types/services.rs"]}
{"id": "C75", "title": "The pool of extrinsics keeps what it accepts, also under concurrent use", "statement": "Whatever is called, the pool answers as a log of the additions it accepted: it refuses an addition exactly when it holds as many different hashes as it may, never holds more, and a query lists the accepted entries of its type and slot in order. When any number of threads add and query at once, all answers are those of one order of the calls that respects time, and threads never block each other for ever.", "quantifier": "every sequence of calls, every size of the pool, any number of threads, every interleaving of their steps", "why_tests_cant": "A deadlock or a lost update needs one of very many interleavings of lock operations and memory accesses; tests run a handful of threads and see the interleavings the scheduler happens to choose.", "anchors": ["extrinsics/src/pool/mod.rs"]}
{"id": "C76", "title": "The state manager as a whole is a transaction on a map with a Merkle root", "statement": "With its cache of decoded entries, the Merkle trie behind an actor and the state database, the state manager answers every read and write as a transaction on a plain map does, through commits, staged and finalized blocks, rollbacks and cache evictions; the root it serves is the Merklization of the encoded committed map, depends on that map only, and commits to it. If the actor dies it stays dead, and nothing more is stored.", "quantifier": "every history of operations, any number of keys, every type of values with an inverting codec, every hash function and iteration order", "why_tests_cant": "Cache, trie and database are each tested alone with few keys; that an entry evicted from the cache, fetched through the trie by the hash of its octets and decoded is the one written needs all three to agree through any history.", "anchors": ["state/src/manager.rs", "state/src/merkle_interface/actor.rs", "state/src/merkle_interface/manager.rs", "state/src/cache.rs", "state/src/state_db.rs"]}
{"id": "C77", "title": "Reads during a commit see the committed state", "statement": "Tasks that read state keys while another task commits the dirty cache always get the value that was visible when the commit began, never an error, in every interleaving of the cache, trie and state database accesses and with clean cache entries dropped at any moment; afterwards the databases hold exactly what was visible and the cache agrees with them. While a staged block is finalized, keys the block does not touch are read correctly.", "quantifier": "All good states, all sets of dirty entries or staged entries whose values have distinct hashes, any number of readers of any keys, all schedules of any length", "why_tests_cant": "Interleavings of async tasks are chosen by the runtime; a test sees a few of them, and the bad ones need a task to be overtaken between two awaits.", "anchors": ["state/src/manager.rs", "state/src/cache.rs", "node/src/scheduler/chain_extension.rs"]}
{"id": "C78", "title": "Announcing authored blocks to the peers", "statement": "Each peer whose announcement stream stays up gets the hash of every authored block exactly once, in every interleaving of the authoring tasks, the stream writers, reconnections and the importer; without lost streams no announcement fails, and one that finds room in all channels ends with the author's state committed and its root stored. The code violates the natural strengthening: one peer whose stream broke stops every announcement behind it and every later commit of the author, and leaves the node with an unfinished best header on which it rejects every block; a peer that does not read has the same effect and blocks reconnections in its shard.", "quantifier": "All numbers of peers, channel sizes, state transition functions and roots, all start states and all histories of any length", "why_tests_cant": "The faults need a peer to vanish between two slots and the history after it to be observed without end; that nothing ever heals is a statement about all continuations.", "anchors": ["network/src/manager.rs", "network/src/streams/up_streams.rs", "network/src/peers.rs", "node/src/scheduler/chain_extension.rs", "node/src/roles/importer.rs"]}
{"id": "C79", "title": "Which validators are connected after they have started", "statement": "A node that is through both rounds of calls is connected to every other node, each connection is in the tables of both sides or on its way into the second, nodes that start while no call runs into the time limit end up as a full network in every interleaving, and a node that starts when all others listen never gives up. The code violates the natural strengthening that nodes which all run and can reach each other get connected: one failed call in the first round cancels the second, so of nodes started one after the other two are connected exactly if the later is preferred over the earlier or over none of those still to come; otherwise no continuation connects them, and any three validators have such an order.", "quantifier": "All numbers of nodes, all preference relations, all keys and all interleavings of starts, calls, time-outs and acceptances of any length", "why_tests_cant": "A test network is started at once on one machine, where no call fails; which pairs stay apart depends on the order of the starts and the keys, and that nothing heals is a statement about all continuations.", "anchors": ["node/src/jam_node/mod.rs", "node/src/jam_node/runner.rs", "network/src/manager.rs", "network/src/utils.rs", "network/src/peers.rs"]}
{"id": "C80", "title": "A node starts on its own database and catches up with the chain", "statement": "Starting the node on empty databases writes exactly the genesis state and records its root; whatever a process had committed when it ended is exactly what the next one reads from its databases, pending and staged work being gone; a node can be started again on its databases; and a node that has missed blocks, for instance while it was down, comes back to the chain when it receives the rest.", "quantifier": "All genesis states, all histories of the state manager before and after the restart, all numbers of restarts and ways a process can end, all chains, missed blocks and orders, times and repetitions of the blocks delivered", "why_tests_cant": "Tests start every node once on a temporary directory and feed blocks in order; restarts after arbitrary histories and gaps in the delivery of blocks are not exercised.", "anchors": ["node/src/jam_node/init.rs:15-101", "state/src/state_utils.rs:278-308", "state/src/manager.rs:225-260", "state/src/manager.rs:984-1020", "state/state-merkle-v2/src/merkle_db.rs:24-36", "node/src/roles/importer.rs:118-200", "node/src/roles/importer.rs:353-366", "storage/src/node_storage.rs:43-56", "network/src/streams/up_streams.rs:80-95"]}
{"id": "C81", "title": "Hexadecimal text denotes the octets it spells", "statement": "Every octet string and array written as text (JSON or display form, with or without 0x) is read back unchanged by every reader; a reader accepts exactly the texts that spell the octets, in either case; ByteArray::from_hex reads the text as a big-endian number and keeps its value; two texts are read as the same octets only if they differ in case and prefix alone; and the two readers of an array accept the same texts.", "quantifier": "All octet strings, all array lengths and all byte sequences as text, including odd lengths, foreign characters and invalid UTF-8", "why_tests_cant": "Tests read well-formed literals of the full length; short, odd, over-long, mixed-case or non-ASCII texts and the agreement of the readers on them are not exercised.", "anchors": ["common/src/types/mod.rs:90-115", "common/src/types/mod.rs:278-325", "common/src/utils/serde.rs:37-109", "crypto/src/types/utils.rs:9-25"]}
