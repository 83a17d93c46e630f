# Formal model of fastroll-jam/fastroll

## Method

`/repo` is read as text; nothing in it is built or run. Each Rust function that
matters to a listed property is transcribed into a total, computable Lean
function over `List`, `Nat`, `Int`, `BitVec`, `Option` and plain structures.
Every definition carries a comment with the file and lines it transcribes and
says where it simplifies. Errors (`Err`) and panics are explicit values, so
"does not crash" is something a theorem can say.

Layout, under `lean/Verif/`:

* `X/*Model.lean` – the transcription of the code;
* `X/*Spec.lean` – small specifications written from the English property or
  the Gray Paper, not from the code;
* `X/*Lemmas*.lean`, `Inv*`, `Finish`, `History`, ... – helper lemmas;
* `X/Props*.lean` – the property theorems, named `Cnn_...`, with an `example`
  beside each showing that its hypotheses are met by a concrete non-trivial case.

Conventions in the theorems:

* Where the code violates a property, the violation is a theorem with a concrete
  witness, the restricted positive theorem carries the suffix `_partial`, and
  the manifest says which part is missing.
* Hashing is a function parameter. Binding statements have the form "the data
  agree, or here are two different strings with one hash", with the strings given
  explicitly from the inputs; collision freedom is never assumed globally.
* Histories (operation lists, chains of blocks, schedules) are lists of any
  length and are handled by induction with an invariant.

## Trusted base

* Lean 4.33.0's kernel.
* Axioms: at most `propext`, `Classical.choice`, `Quot.sound`; the list per theorem is
  at the end of this file. No `sorry`, `native_decide`, `bv_decide` or own axioms.
* The reading of the Rust code recorded in the models (comments cite files and
  lines).
* Cryptographic primitives (Blake2b, Keccak, Bandersnatch VRF and ring proofs,
  Ed25519) are function parameters.
* RocksDB write batches are atomic one by one; iteration is in key order.
* mini_moka may evict any clean entry at any time. That it does not evict entries of weight
  zero is an assumption taken from a comment in `state/src/cache.rs` 73-83; the theorem
  `C30_evicted_write_is_lost` shows what depends on it.
* `BinaryHeap`, `BTreeSet`, `HashMap`, `HashSet` are used through their contracts (any
  heap layout, any iteration order).
* Async tasks inside one block's transition run in program order unless the property is about
  interleaving (C31: database cache; C40: background ring tasks; C44: parallel accumulation).
* Integer overflow: the workspace sets no `overflow-checks`, so release builds
  wrap and debug builds panic. Models use naturals where the code's values are
  provably small and say how the machine word behaves where overflow matters.

## How the mutation log is to be read

`seeded/LOG.jsonl` has one line per wrong program tried: one definition of the model is edited in a copy outside this
directory, the area is checked again, and the theorems that no longer check are listed.

* A theorem is listed if its own proof fails or if a lemma it uses fails.  So a list can be longer than the claims the edit
  really makes false, and a failing proof is by itself no proof that the statement has become false.
* Lines with an empty list are survivors; their note says whether the edit is equivalent, outside every claim, or was
  caught later by a theorem added for it.
* The runner once counted a check that was stopped (time or memory) as a failure of every theorem of the area.  It now
  reports such a check as undecided.  The 13 lines whose list was the whole area at the time and 64
  others with lists nearly as long were checked again with the corrected runner: none is undecided, and every theorem
  they list fails again.
* One line of the log was corrected by hand after such a repetition: the mutant "the reserved zone is one octet too short".

## Plan per property

| id | what is modelled | proof |
|----|------------------|-------|
| C01 | `integer_encode_to`, `integer_decode` on `Nat < 2^64` and byte lists | case analysis on the length class, arithmetic |
| C02 | same decoder | negation with witness; partial: minimal-form inputs |
| C03 | fixed-width codec | induction on width |
| C04 | codec combinators over a universe of wire types | induction on types and list length |
| C05 | LimitedVec operations | invariant over operation lists |
| C06 | `node`, `trace`, constant-depth preprocessing over an opaque hash | well-founded induction on list length |
| C07 | MMR `append` | refinement to binary counter |
| C08 | `shuffle` | permutation invariant of the in-place loop |
| C09 | `rotate`, `permute` | counting over permutations |
| C10 | ALU opcodes in `set.rs` and helpers in `utils.rs` | case analysis to integer specs; negation for signed remainder of the minimum |
| C11 | `Memory` | refinement to byte map with permissions |
| C12 | interpreter loop and gas | induction on steps |
| C13 | loader, branch/djump | invariant over steps |
| C14 | memory layout | linear arithmetic |
| C15 | `max_processable_reports` and the outer loop | induction on list and rounds |
| C16 | queue editing and extraction | least fixed point, induction over chains |
| C17, C18 | lookup state machine, historical lookup | invariant over operations |
| C19, C20 | account footprint and balances | invariant over host calls |
| C21 | sandbox eject | negation witness plus partial |
| C22 | id allocation | modular arithmetic |
| C23, C24 | context pair, privileged calls | case analysis, induction over calls, merge |
| C25, C26 | ticket accumulator, outside-in | sorting/permutation lemmas, chains |
| C27 | disputes | invariant over chains |
| C28, C29 | assurances and pending reports | counting, invariant over chains |
| C30, C31 | state cache, DB cache | refinement to a two-map transaction; schedules |
| C32, C33 | binary trie with incremental updates, node codec | canonical-trie invariant, refinement |
| C34 | key construction | injectivity |
| C35 | ancestor set | invariant, counting |
| C36 | sandbox overlay | refinement to plain maps |
| C37–C39 | pools, history, validator sets over chains | invariants over histories |
| C40 | ring cache with tasks, forks and rejections | invariant over histories, witnesses |
| C41 | windows of host calls | case analysis |
| C42 | program loader | exact characterisation |
| C43 | accumulation queue and history | ring refinement |
| C44 | merge of a round | isolation |
| C45, C46 | guarantees | chain invariant; acceptance iff |
| C47 | codecs of every wire type, header and extrinsic hash | layouts compose field by field; binding to explicit collisions |
| C48 | the same decoders with the preallocation of vectors as a panic | panic-freedom closed under the combinators; witnesses |
| C49 | `Vec<u8>` fields | counting encoded bytes |
| C50 | decoder, executor and state change together | the paper's operand formats and effects as a relation; refinement of one step, then of runs by induction; deviations as theorems |
| C51 | the eight refinement host functions, inner machines and their runs | the paper's calls as a relation over protected byte maps; refinement call by call; inner runs through C50; departures as theorems |
| C52 | the same, along sequences of calls | what one call may change, as a structure of frame conditions; induction over the sequence |
| C53 | the statistics transition, its types and the accumulation statistics | counters as sums modulo their width over an arbitrary chain of blocks split at epoch changes; one block for cores and services; iteration order as a permutation |
| C54 | the erasure codec and `zero_pad` | columns and an oracle for the code with its erasure property as hypothesis; encoding specified cell by cell; recovery for every set of at least k chunks |
| C55 | paged proofs, erasure root, specification | through the Merkle theorems C06-C08; bindings as equality or explicit collision |
| C56 | the bundle codec | the combinators of C47; the paper's layout by counting octets |
| C57 | the three validations of a package | decision equals the paper's inequalities |
| C58 | `compute_work_report` with its helpers | the paper's running sums as a separate recursion; agreement by induction over the items; departures as theorems |
| C59 | the datum `host_fetch` picks, the constants and summaries encoders | the paper's function with optional arguments; selector by selector, layouts from C47 |
| C60 | the codecs of every state component, and saving and loading the sixteen of them | one `Codes` lemma per component over the combinators of C47; the heap of tickets up to permutation |
| C61 | program invocation | the interpreter of C12 with the initial memory of C14, host functions as parameters; format by decoder completeness and soundness; cache by induction over uses; `R` from the final state |
| C62 | importing and authoring blocks | the transition is a parameter; one step by cases on the checks, runs by induction, commitment by induction on chains with the hash binding of C47 |
| C63 | fork handling of the fuzzing target | invariant between the target and a tree of points; induction over messages; the importer of C62 in both commit modes |
| C64 | every schedule of a task group gives the results and state of the tasks alone | interleaving semantics with one step per cache or database operation; invariant over all schedules with read, write and view footprints; fair schedules terminate; lost-update witnesses |
| C65 | host functions of accumulation against the Gray Paper | relational transcription of appendix B over octet memories and account maps, shown deterministic; one lemma per host function; sandbox through the refinement of C36; induction over sequences; witnesses of three departures |
| C66 | framing and sessions of the fuzzing protocol | round trip per message; reading from a list of pieces shown to depend only on their concatenation; session composed with the target of C63; induction over messages |
| C67 | announcing, requesting and delivering blocks between nodes | streams as lists of pieces; decoders shown firm under extension (results and panics stay), so cut messages are refused; invariant of the stores over histories; first-difference order of keys; the violations as theorems |
| C68 | clock, scheduler, predicted state, author of a slot | slots as intervals of time; predictions compared with the block transition of C26/C39; fallback series through C26; acceptance through C62 with the key hypothesis discharged by the prediction; the violations as theorems with witnesses |
| C69 | the whole state transition of a block, chains of blocks | the models of the areas wired as in the executor (which component each step reads, before or after the block); an accepted block shown equal to a tuple of intermediate results, from which the chains of C16, C26, C28 and C45 follow; invariants over linked stages; noninterference of two accepted blocks; error lemmas for every step |
| C70 | the accumulation of a whole block | the pipeline of C15 with the execution of services (C20, C36) and the merge of rounds (C21, C34) wired in; each iteration shown to be one faithful round, then induction over the loop; gas paid per call from the trace of host calls |
| C71 | the accounts after the rounds of a block, the writing back, the stamps and the preimages, histories of blocks | an invariant on sandboxes (good entries that mean consistent accounts) kept by every stage of a round: receiving, loading code, host calls (by the steps of C20 and C36), merging, providing; frames by a predicate transformer over the operations of a store; then write-back (C36) and induction over histories |
| C72 | chains of blocks that execute services | the transition of C69 with the accumulation of C70, the stamps and the preimages put in for its parameters; an accepted block shown to be a chain of faithful rounds; sizes by an invariant on privileges over host calls and merges; provenance of validators and authorizers by induction over blocks with a count of epoch openings |
| C73 | why the accumulation of a block fails | error-freeness of each host call from an invariant on contexts (service alive, requests in order, tokens below 2^64, next identifier free, core lists complete); the invariant kept by calls, rounds and merges; the remaining errors of the interpreter and the loader named by the configuration that causes them; counterexamples run in the kernel |
| C74 | preimages, request histories and guarantees along a chain | properties of one account that every operation of a service keeps (`Local`), lifted to rounds, to blocks with their preimages and to chains |
| C75 | the pool of extrinsics, one call after another and by many threads | maps against a log of accepted additions; threads as program counters with two reader-writer locks, an invariant that ties locks to threads and data to the calls that have taken effect; a stuck pair shown to stay stuck |
| C76 | whole state manager | Composition: a simulation between the store (cache + trie + state database) and the cache model of C30 over an abstract database, whose entries are represented by the map of C32; batches of dirty entries are shown to be legal batches of the trie; the state database only grows, so a collision anywhere in the run is visible at its end. |
| C77 | reads during a commit or a finalization | small-step model of tasks that share cache, trie and state database; an invariant per phase of the writer (trie, state database, cache key by key) that ties each reader's program counter to the visible map of the start; two schedules as witnesses for finalization |
| C78 | announcements, lost and slow peers | small-step model of authoring tasks, channels, the table of peers and the importer; an account per peer and hash kept by every step; the faults as invariants of all continuations |
| C79 | connections after start-up | small-step model of starts, calls, time-outs, rounds and acceptances over all nodes; invariants of every history; closed form of sequential starts by induction on the nodes; the fault as an invariant of all continuations |
| C80 | starting, restarting and catching up | the state manager of C76 opened again on the same databases; the trie never reads its root, so the simulation of C76 carries over; failing starts by induction over the entries and the attempts; gaps in a chain by the commitment theorem of C62 |
| C81 | hexadecimal text | independent spec (two rows of sixteen digits, numbers to a base); decoding characterised exactly by induction on the text; `from_hex` as a number, with padding as leading zeros; single-octet facts checked for all 256 octets and lifted |

## What is modelled

| area (lean/Verif) | code in /repo | left out or simplified |
|---|---|---|
| Codec | codec/fr-codec/src/lib.rs | derive macro; `size_hint`s of composites; map keys other than integers |
| LimVec | common/limited-vec/src/lib.rs | – |
| Shuffle | extrinsics/src/utils/{shuffle,guarantor_rotation}.rs | reading entropy and sets from the state |
| Merkle | merkle/src/{common,well_balanced_tree,constant_depth_tree,mmr}.rs | hash errors |
| Pvm/Alu | pvm-core/src/utils.rs, register instructions of program/instruction/set.rs | – |
| Pvm/Mem | pvm-core/src/state/memory.rs | – |
| Pvm/Layout | pvm-interface/src/pvm.rs, program/types/formatted_program.rs | – |
| Pvm/Interp, Pvm/Load | program/loader.rs, instruction/{mod,opcode,set}.rs, state_change.rs, gas, interpreter, pvm-interface/src/invoke.rs | host functions are a parameter there |
| Acc | pvm-invocation/src/accumulate/{utils,pipeline}.rs, transition/src/state/accumulate.rs, state/src/types/accumulate.rs | execution of one service is a parameter |
| Svc | state/src/types/services.rs, pvm-host/src/context/{mod,partial_state}.rs, host_functions/{accumulate,general}, accumulate/{mod,pipeline}.rs, transition/src/state/services.rs | program execution is a list of host calls (or a `Machine`); provider errors |
| Safrole | state/src/types/safrole.rs, extrinsics/src/validation/tickets.rs, transition/src/state/{safrole,entropy,validators,timeslot}.rs | VRF and ring proofs are inputs |
| Judge | extrinsics/src/validation/disputes.rs, state/src/types/disputes.rs, transition/src/state/disputes.rs | signatures are a function |
| Reports | extrinsics/src/validation/{assurances,guarantees}.rs, transition/src/state/{reports,history,authorizer}.rs and their types | results of accumulation are inputs |
| Ring | state/src/manager.rs 89-126, 285-526, transition/src/ring_cache.rs and callers | validity of blocks; verifier construction |
| Ancestors | block/src/ancestors.rs | – |
| StateCache | state/src/cache.rs, entry accessors and commits of state/src/manager.rs | the trie is one durable map there |
| CachedDb | db/src/core/cached_db.rs | read errors |
| StateKeys | state/src/state_utils.rs 200-398 | – |
| Trie | state/state-merkle-v2/src/*.rs, state/src/merkle_interface/manager.rs, commit path of state/src/manager.rs | database errors; cache in front of the column families |
| Wire | block/src/types/**, common/src/types/{mod,ticket}.rs, common/src/types/workloads/*.rs, state/src/types/services.rs 89-99, pvm-types/src/invoke_args.rs | `size_hint`s |
| Refine | pvm-host/src/host_functions/refine/mod.rs, inner_vm.rs, context/mod.rs 493-536, common/src/utils/zero_pad.rs | allocations that fail below `isize::MAX`; the counter of machine numbers does not reach 2^64 |
| Stats | transition/src/state/statistics.rs, state/src/types/statistics.rs, pvm-types/src/stats.rs, block/src/types/extrinsics/assurances.rs 29-57 | fields the statistics do not read |
| Da | common/erasure-coding/src/lib.rs, common/src/utils/zero_pad.rs, pvm-invocation/src/refine/{avail_spec,auditable_bundle}.rs | the arithmetic of `reed_solomon_simd` (a parameter), rayon's scheduling |
| Wr | common/src/types/workloads/work_package.rs 236-291, pvm-invocation/src/refine/pipeline.rs | what `Ψ_I` and `Ψ_R` return (parameters); the parts that are `unimplemented!` |
| Fetch | pvm-host/src/host_functions/general/mod.rs 44-110 and 142-239, common/src/constants/constants_encoder.rs, work_package.rs 167-183 | the window written to memory is in Svc (C41); the hash map of extrinsic data is a function |
| Comp | state/src/types/*.rs (codecs), state_utils.rs 202-220, manager.rs 911-948 | the fuzz/test codecs; where the octets are kept is StateCache and Merkle |
| Entry points of the VM | `pvm-interface/src/invoke.rs`, `program/types/formatted_program.rs`, `pvm-invocation/src/{refine,is_authorized}/mod.rs` | the program cache's replacement policy (any forgetting is allowed); logging by host call 100; accumulation's entry point is in the service area |
| Importer and author | `node/src/roles/{importer,author}.rs`, `scheduler/chain_extension.rs`, `header_db.rs`, `post_state_root_db.rs` | databases as maps that do not fail; concurrency of the tasks; choosing the slot to author in |
| Fuzzing target | `fuzz/src/fuzz_target.rs` | sockets and message codec (modelled in Wire, C66), order of the entries in a state; panics inside the import |
| Conc (`Verif/Conc`) | node/src/roles/executor.rs 95-315 (task groups), state/src/manager.rs 880-1080 (look-up, fetch, insert, with_mut_entry, add), the state accesses of each transition function | contents of the transition functions (parameters), cancellation of the siblings of a failed task, evictions except as a witness, memory ordering inside the cache |
| Host (`Verif/Host`) | the Gray Paper side of `pvm/pvm-host/src/host_functions/*`: the model is `Svc/HostModel.lean`, the transcription `Host/Spec.lean` | the datum selected by fetch (C59 covers it), host functions of refinement (C51) |
| Net (`Verif/Net`), fuzzing protocol | fuzz/src/types.rs (codecs of all messages), fuzz/src/utils.rs (frames), fuzz/src/fuzz_target.rs (sessions, handshake, reset after a panic) | the socket itself (a list of pieces), the text of errors and the UTF-8 check (parameters), logging |
| Net (`Verif/Net/Gossip*`), block propagation | network/src/streams/*, network/src/manager.rs (peer table, stream loops, connection rule), network/src/utils.rs, storage/src/node_storage.rs (get_block(s)), the stores of author, importer and genesis | QUIC and TLS (endpoint.rs), loss and reconnection, the channel to the importer, CE kinds without implementation |
| Duty (`Verif/Duty`) | clock/src/lib.rs, node/src/scheduler/*, node/src/roles/manager.rs, transition/src/state_prediction/*, the index of init.rs, the two tasks of runner.rs | times before 1970, drift between the monotonic and the wall clock, interleavings finer than the two phases of the author, two authoring tasks at once |
| Stf (`Verif/Stf`) | node/src/roles/executor.rs lines 72-315, 402-411, the order and the clean/dirty reads of transition/src/state/*.rs, extrinsics/src/utils/guarantor_rotation.rs | execution of services (parameter `accumulate`), preimages and last accumulation slots (parameters; C18, C30), the schedule of the tasks (C64), the header (C62) |
| Delta (`Verif/Delta`) | pvm/pvm-invocation/src/accumulate/pipeline.rs lines 72-169, 430-643, 682-729, transition/src/state/services.rs lines 102-155 and 396-421, transition/src/state/privileges.rs | operands as codec (a parameter of the environment; C57), the ring cache, which of several errors of one round is reported |
| Node (`Verif/Node`) | node/src/roles/executor.rs lines 230-300, transition/src/state/services.rs lines 102-155 and 433-503, extrinsics/src/validation/preimages.rs, guarantees.rs lines 221-240 | the translation of hashes between octets and numbers, the loader of programs, data of `fetch` and seeds of identifiers (parameters) |
| Abort (`Verif/Abort`) | no code of its own: the error paths of the models of `Delta`, `Svc` and `Pvm` | overflow panics of debug builds; errors of the database |
| Pool (`Verif/Pool`) | extrinsics/src/pool/mod.rs | poisoned locks; `remove_extrinsic` (unimplemented in the code); fairness of locks |
| Store | `state/src/manager.rs` (`retrieve_state_encoded`, `prepare_dirty_cache_commit`, `apply_dirty_cache_commit`, `commit_dirty_cache`, `rollback_dirty_cache`, `merkle_root`), `state/src/merkle_interface/actor.rs`, `merkle_interface/manager.rs` (the conversion of dirty entries), `state/src/state_utils.rs` (`StateEntryType`) | mpsc channel and oneshot replies (commands run one at a time); database errors; write-through caches (C31); codecs are a parameter with the law `dec (enc v) = v`, instantiated with those of C60 in `TypedModel.lean`; `Raw` entries |
| Readers (`Verif/Readers`) | state/src/manager.rs 742-768, 803-869, 917-953; state/src/cache.rs 179-230 | the trie as a tree (C32, C76), encodings, database errors, concurrent writers (C64), pre-state reads |
| Announce (`Verif/Announce`) | network/src/manager.rs 386-407; network/src/streams/up_streams.rs 19-37, 121-135; network/src/peers.rs 36-65; node/src/scheduler/chain_extension.rs 32-95; node/src/roles/importer.rs 117-200, 275-285, 353-415 | QUIC, connection set-up (C63), peers added after start-up, the state transition (a parameter), the author's failures before the announcement |
| Dial (`Verif/Dial`) | node/src/jam_node/mod.rs 53-115; node/src/jam_node/runner.rs 16-36; network/src/manager.rs 73-192, 204-407; network/src/peers.rs 36-65 | QUIC and TLS, streams and their handles (C78), broken connections, unreliable networks, address tables (C67) |
| Restart (`Verif/Restart`) | node/src/jam_node/init.rs 15-46, 72-73; state/src/state_utils.rs 278-308; state/src/manager.rs 225-260; block/src/header_db.rs 71-98 (with the models of C62 and C76) | the extrinsics entry of the genesis block, the network part of `init_node`, errors of the databases |
| HexText (`Verif/HexText`) | common/src/types/mod.rs 82-115, 140-144, 243-247, 278-325; common/src/utils/serde.rs 37-109 | the `hex` crate (its documented behaviour is modelled), serde_json, error messages, `FileReader` |

Not modelled: the QUIC transport and TLS below the network streams, the command line and configuration, docker and
scripts, test utilities and ASN.1 conversions, logging, RocksDB itself, cryptographic code.

## Findings

Places where the code departs from the listed property, from the Gray Paper or from what its own comments promise.
Each is a theorem about the model with a concrete or general witness.

1. **C02** The variable-length integer decoder accepts longer forms (`C02_noncanonical_accepted`).
2. **C05** `FixedVec` has unchecked constructors that give a vector of the wrong size; `shift_push` panics at capacity zero.
3. **C07** Equality of mountain ranges compares super-peaks and identifies ranges of different sizes (`C07_eq_confuses_sizes`).
4. **C10** Signed remainder of the most negative value by a divisor other than −1 gives 0 (`C10_signed_rem_wrong`).
5. **C11/C14** `sbrk` past 2^32 wraps: read-only pages become writable (`C11_sbrk_wraps`, `C14_read_only_escape`); large requests are truncated; one-byte faults report an unaligned address.
6. **C12** `sbrk` takes effect before the gas check; gas limits of 2^63 or more start negative.
7. **C13** The loader never looks at the instruction at index 0 when it collects block starts.
8. **C42** The loader panics on missing operand bytes and on huge jump-table lengths, and refuses instructions longer than 16 bytes that the Gray Paper admits.
9. **C15** With always-accumulate services the gas accounting can fail with `GasOverflow` and reject a block (`C15_always_overflow`).
10. **C17/C18** Forgetting a request under one length deletes the preimage another length still needs.
11. **C21** Ejecting a service that has already run in the block, or re-creating its identifier, mints tokens (three theorems).
12. **C24** After the manager blesses, the assigners' own choices are lost; a service that blesses itself gets the registrar's right at once; two such services make the round unmergeable.
13. **C25** Duplicate tickets are recognised by identifier and attempt together: the same identifier with another attempt is accepted twice.
14. **C27** A key that is culprit and fault in one extrinsic is recorded twice; verdicts dated in a future epoch are judged by the past set; evidence about a report judged in an earlier block is refused.
15. **C29** Verdicts find pending reports by hash.
16. **C30** Pre-state reads see uncommitted additions; rollback after add/remove leaves a phantom entry; re-adding a removed key panics the commit; eviction of a dirty entry would lose a write.
17. **C31** An overtaken read and crossed writes leave a stale cache.
18. **C32** A failed commit is not undone in the trie's change set and leaks into the next commit; the root is lost on restart until the next commit; a crash between the two database writes loses long values; the last key cannot be removed, and a batch that replaces it depends on the order.
19. **C33** Padding bits of leaves are not checked when decoding.
20. **C34** Lookup entries at the two largest lengths share hashed prefixes with storage and preimage entries; entries of services 1–16 and 255 can only be told from components by hash prefixes.
21. **C35** Removing an ancestor filters the heap by hash only.
22. **C36** Re-creating an ejected identifier in the sandbox mixes old and new entries.
23. **C40** The ticket verifier can be that of another validator set after an epoch-starting designation, and rejected blocks poison or rotate the ring cache.
24. **C47** An import index of 2^15 or more is written as the other kind of import (`C47_import_index_aliases`); sets and dictionaries decode from unsorted and repeated entries, so equal values have many encodings (`C47_set_decoding_not_canonical`).
25. **C48** `Vec<T>::decode` and `ByteSequence::decode` allocate for the announced length before reading: a block announcing 2^54 tickets, a header announcing 2^58 offenders, or service code with a metadata length of 2^63 panics the node that decodes it.
26. **C49** `AccumulateOperand::auth_trace` and the metadata of service code are `Vec<u8>` and pass through the integer codec: a trace byte of 128 or more is written as two bytes, and metadata `[0x80]` swallows the first byte of the code, so that the code which runs is not the one published.
27. **C50** `ecalli` keeps the low octet of its immediate: `ecalli 263` calls host function 7, where the paper's machine calls an unknown function (`C50_host_number_truncated`).
28. **C50** A load or store whose range passes the top of the address space (a 4-byte load at 2^32 - 2) returns `Err`, which the accumulation pipeline hands up as a failure of the block instead of ending the service with a fault (`C50_past_end_error`).
29. **C50** A page fault at a store sets the program counter to 0, at a load it keeps it (`C50_store_fault_resets_pc`); an inner machine resumed after its page is provided starts over. The code has a TODO there.
30. **C51** `InnerPVM::new` gives an inner machine `Memory::default()`, which has no pages and page size 0. Nothing ever gives it more (`C51_no_inner_memory`): `pages` always answers HUH (`C51_pages_refused`), `peek` and `poke` never succeed, a load or store in an inner machine makes `invoke` return `Err` and so aborts the whole refinement (`C51_inner_access_aborts`), and `sbrk` in an inner machine divides by zero and panics the thread (`C51_inner_sbrk_crashes`).
31. **C51** `host_pages` adds the first page and the count in wrapping `usize` arithmetic: page 16 and count 2^64 - 1 panics with a capacity overflow in modes 0-2 (`C51_pages_crash`) and is granted in modes 3-4 (`C51_pages_wrap_granted`). A guest program can crash the node with one host call.
32. **C51** `invoke` reports an inner host call the node has no name for as 255 (`C51_host_number_lost`); a gas limit of 2^63 or more aborts the refinement (`C51_gas_limit_aborts`); an inner machine that runs out of gas hands back 2^64 - 1 units (`C51_out_of_gas_wraps`; the paper's own machine also goes below zero, but its encoding of a negative remainder is not defined); numbers of removed machines are not reused (`C51_id_not_least`); an empty range at an address of more than 32 bits panics (`C51_empty_range_panics`).
33. **C53** The data-availability load of a core is counted as `4104 * 65 * ⌈n / 64⌉` instead of `4104 * ⌈65 n / 64⌉`: three exported segments count as 65, not 4 (`C53_da_load_wrong`); the two agree exactly when `n` is a multiple of 64 (`C53_da_load_iff`). The import, extrinsic and export counters of a core are 16 bits wide and nothing bounds what reports claim, so they wrap (`C53_core_exports_wrap`), or stop a node built with overflow checks.
34. **C54** `erasure_recover` trusts the lengths of the chunks it is given: a chunk shorter than the first one panics with a slice out of range, a last odd octet is returned as zero, the rest of a longer chunk is ignored (`C54_chunks_unchecked`, `C54_short_chunk`).
35. **C54** `zero_pad` of empty input returns a whole block of zeros where the Gray Paper's padding adds nothing (`C54_zero_pad_empty`).
36. **C55** `build_avail_specs` casts the number of segments to 16 bits and the length of the bundle to 32: 2^16 segments are reported as none (`C55_count_wraps`). The open question in `generate_paged_proofs`, whether a page always fits its segment, has the answer yes (`C55_paged_proofs`).
37. **C56** Imported segments in the auditable bundle are written octet by octet through the integer codec, so every octet of 128 or more takes two octets (`C56_layout_partial`, `C56_length`); the shape of the data is not checked against the package (`C56_shape_unchecked`).
38. **C57** `validate_gas_limits` sums 64-bit gas limits with `sum()`, which wraps in release builds: two items of 2^63 units pass (`C57_gas_wraps`). None of the three validations is called anywhere.
39. **C58** In `compute_work_report` the octets of an output that is turned down stay in the running size. After an oversize output every later item is reported oversize, whatever it returned (`C58_oversize_spreads`, `C58_oversize_differs`); an output with a wrong number of exports also takes room (`C58_bad_exports_counted`). The Gray Paper counts accepted outputs only.
40. **C58** The zero segments that stand for the exports of a failed item are computed and then dropped, so the exports of later items are committed to at lower indices than their refinement was told (`C58_zero_segments_dropped`).
41. **C58** Imports by package hash are counted with multiplicity against the limit of eight dependencies: nine segments of one package are refused (`C58_lookup_multiplicity`). Counts of more than 16 bits in a digest are cut (`C58_counts_wrap`). The function ends in `unimplemented!` on every path that does not end in an error (`C58_never`).
42. **C59** Selector 11 of `fetch` encodes the summaries as `Vec<Vec<u8>>` through the generic codec: every summary gets a length octet the Gray Paper does not have and every octet of 128 or more takes two (`C59_summaries_length`), so the datum is wrong for every package with an item (`C59_summaries_wrong`). Selectors 4 and 6 index the item without a check (`C59_own_item_unchecked`).
43. **C60** Service identifiers in the statistics are laid out in four octets where the Gray Paper has its integer encoding, as a FIXME in statistics.rs admits (`C60_statistics_differ`). A ticket accumulator longer than an epoch is silently cut when loaded (`C60_accumulator_cut`), a lookup entry with a huge length panics before the limit of three is checked (`C60_lookups_panic`), and octets after a component are ignored (`C60_trailing`).
44. Invocations that the Gray Paper answers with a panic or an empty result end in an `Err` that propagates out of the invocation: a service code blob that is not a standard program (`C61_malformed`), and a program that halts with 2^32 or more in register 7 (`C61_halt_high`). Service code whose metadata cannot be decoded gives `Err` or a thread panic instead of `BAD` (`C61_undecodable`). The refinement arguments encode payload octets above 127 in two octets (`C61_refine_args`), and the code size limit ignores the metadata (`C61_refine_big_partial`).
45. **C62 (serious)** A block whose parent hash is zero is taken for the genesis block at any time: none of its header fields is checked, not even the seal, and its writes are committed (`C62_zero_parent_unchecked`). Afterwards valid blocks are executed on the wrong state and rejected (`C62_zero_parent_breaks`).
46. **C62** `is_in_future` takes slot `s` to begin at `(s-1)·6`, so blocks are accepted up to six seconds early (`C62_early`).
47. **C62** An author stores its own header without adding it to its ancestor set (`C62_author_ancestors`). If the transition fails after the header was stored, the best header has no state root and every later block is rejected (`C62_author_stuck`).
48. **C63** Only accumulation reports the state keys it adds; preimages integrated from the extrinsic are not reported, so `GetState` leaves their entries out once the block is finalised or committed (`C63_unreported_key`). A block naming a staged parent finalises it and drops the siblings before it is itself validated (`C63_invalid_child`). `GetState` of an unknown hash answers with the finalised state instead of an error (`C63_unknown_hash`).
49. **Lost update between concurrent tasks (C64).** `get_clean_state_entry_internal` and `get_state_entry_internal` (state/src/manager.rs 894-952) look in the cache, await the database on a miss, and then insert a clean entry unconditionally, overwriting what another task wrote meanwhile. At an epoch change `transition_past_set` (and `transition_disputes` when there are disputes) read the clean active set while `transition_active_set` writes it (node/src/roles/executor.rs 102-150), so with the active set not cached the new set can be lost: the key stays in the dirty set but its entry is clean and the commit skips it. The node loads the active set at start (node/src/jam_node/init.rs 90), but the fuzzing target loads raw entries (fuzz/src/fuzz_target.rs 595), which count as a miss for clean reads. `C64_cold_cache_loses` and `C64_raw_cache_loses` give schedules. Also, an eviction between a look-up and `with_mut_entry` yields `CacheEntryNotFound` and fails a valid block (`C64_eviction_fails`). The other phases have no such race.
50. **Departures of the host functions from the Gray Paper (C65).** An empty range at an address of 2^32 or more panics, although the paper reads no octet of it (`C65_far_empty_range_partial`). `solicit` of 2^32 octets or more is always refused with FULL, also for a service that can pay (`C65_long_solicit_full`, `C65_long_solicit_partial`). `forget` and `eject` add the expiry period to a slot in `u32`; near the end of the range the sum wraps and a request withdrawn in the present slot is dropped at once (`C65_expiry_wraps_partial`; a debug build panics).
51. **Fuzzing protocol (C66).** Texts are encoded octet by octet as general integers, so octets from 128 on take two octets and a peer following the protocol misreads the name or the error (`C66_layout_partial` and its example). Octets left over inside a frame are ignored (`C66_junk_accepted`). The receive buffer of up to 4 GiB is allocated from the length prefix alone. A count of state entries from 2^63/56 on overflows the capacity computation and panics the session; the panic is caught and the target reset (`C66_panic`).
52. **Block propagation (C67).** `read_chunk(1024)` is taken for a whole message everywhere. A response longer than 1024 octets, or one that arrives in two pieces, decodes to no block and `blocks[0]` panics: no block above 1024 octets can be fetched (`C67_large_lost`, `C67_delivery_partial`). Announcements that arrive together lose all but the first (`C67_coalesced`), cut ones are lost (`C67_cut`), and from ten validators on the first block of every epoch has an announcement above 1024 octets (`C67_epoch_announcement_long`). The header is announced before the extrinsics are stored, so an early request finds no block, and importers never store extrinsics (`C67_not_served`). Any CE stream other than a request for exactly one block panics; on connections the node opened this ends the service of all later streams (`C67_panic_stops`). The block received is not compared with the hash asked for; the importer validates it as any other. A panic of the decoder in an announcement (a count of offenders from 2^58 on) ends the task that listens to that peer.
53. **Ticket mode is not implemented in the node (C68).** `is_author_of_slot` is `unimplemented!()` when the sealer is a ticket. The task of the slot panics on every node, so after a successful ticket contest no node of this kind authors a block for the whole next epoch; afterwards the gap makes the epoch after that a fallback one (`C68_ticket_mode`, `C68_contest_lost`).
54. **Stale index, second clock reading (C68).** `curr_epoch_validator_index` is set once from the genesis active set. A validator whose place changes authors blocks with the wrong author index; every other node refuses them, its own node makes them its best header and then refuses everybody else's (`C68_stale_index`, `C68_alone`). The header's slot is read from the clock again in `prelude`, not taken from the tick that was checked, with the same effect near a slot boundary (`C68_slow`). `C68_accepted_iff` is the exact condition.
55. **Author and importer share one dirty cache (C68).** `extend_chain` and `run_block_importer` run as separate tasks on one `StateManager` without a lock. When the importer refuses a block between the author's two phases, `rollback_dirty_cache` discards the author's first-phase writes; the author commits a state without them and records a root no other node finds (`C68_interrupted`, `C68_diverges`).
56. **Scheduler start and late ticks (C68).** `millis_until_next_timeslot_boundary` reads the time twice; if a slot boundary lies between, `checked_sub` gives `None` and the scheduler task returns for good (`C68_first_tick_partial`). `interval` catches up on missed ticks in a burst, and the slot is taken from the clock, so a late tick skips its slot and handles the next twice (`C68_late`).
57. **Slot 0 may be repeated (C69).** `validate_timeslot` skips the comparison when both the prior and the new slot are 0, so the transition accepts any number of blocks in slot 0 (`C69_slot_partial`). The importer compares with the parent's header and refuses them; the executor on its own does not.
58. **The block's gas limit wraps (C70).** `transition_on_accumulate` adds the always-accumulate gas to the per-core gas in 64 bits without a check. When the always-accumulate gas sums to 2^64 or more, the limit wraps to less than those services are given; the loop's checked subtraction fails and the whole block is rejected (`C70_gas_error_partial`); a debug build panics.
59. **A program can make the whole block fail (C73).** Errors inside an accumulation go up with `?` to `accumulate_outer`, so the block is refused where the Gray Paper has the program panic or run out of gas. New ways, beside findings 9, 28, 44 and 58: (a) `transfer` with a gas limit of 2^63 - 10 or more gives `TooLargeGasCharge`; any service with 100 gas can do it (`C73_gift_aborts`, `C73_aborts_partial`). (b) `sbrk` for more heap than there is below the stack gives `SbrkHeapStackCollision`. (c) A gas limit of exactly 2^63 becomes the smallest signed number and the first charge overflows (`C73_debt_partial`). (d) Two services that create or eject the same identifier in a round. (e) Broken code of a privileged service stops all accumulation for good, because privileged services run in every round and privileges change only by accumulation (`C73_chain_stops`); broken code of an always-accumulate service stops the chain (`C73_always_stops`).
60. **The pool of extrinsics can deadlock (C75).** `add_extrinsic` locks `extrinsics` and then `type_timeslot_index`; `get_extrinsics_by_type_and_timeslot` locks them in the opposite order. If each has taken its first lock, neither returns, and no later call does (`C75_deadlock`). With one order no deadlock is possible (`C75_progress_partial`). An entry that is added again is listed once more each time, and the index grows without bound (`C75_repeats`); a full pool refuses even an entry it already has. The pool is not yet used by the node.
61. **A panic in the Merkle actor is permanent (C76).** The trie lives in a task started by `tokio::spawn` (`state/src/manager.rs` 250) and nothing watches it. A batch that makes the trie panic, such as a committed key removed and added again in one block, ends the task; from then on root requests, commits and stagings with dirty entries, finalizations and every access to a key that is not cached return `MerkleActorClosed`, also after a rollback and for unrelated keys (`C76_actor_death`, `C76_readd_kills_actor`). The node has to be restarted.
62. **Reads during the finalization of a staged block can fail or poison the cache (C77).** `apply_dirty_cache_commit` (`state/src/manager.rs` 803-835) writes the trie first, then the state database, then the cache, and unlike a direct commit the block's entries are not in the cache meanwhile. A read of one of the block's keys between the first two finds a hash in the trie and nothing under it: `StateDBMissingEntry` (`C77_finalize_missing`). A read that fetched the old value before and inserts it after the cache was updated leaves it there as a clean entry (`C77_finalize_stale`). Only the fuzz target finalizes blocks this way at present, and it does so with no other task reading. The direct commit, which the node uses while the chain-extension scheduler reads, is right in every schedule (`C77_commit_reads`).
63. **One lost peer takes the author off the chain (C78).** When the stream of a peer breaks, its `UpStreamHandle` stays in the table (the code has a TODO for it), and the next `send_block_announcement(..).await?` in `announce_block_to_all_peers` (`network/src/manager.rs` 386-407) fails. Peers later in the table get no announcement, and the error leaves `extend_chain` (`node/src/scheduler/chain_extension.rs` 60-80) before `author_block_commit_state`, although the header is already committed and set as best header. Nothing is rolled back. The importer then wants the parent to be the best header and to have a stored post-state root; the unfinished header has none, so every block is rejected (`C78_one_loss_partial`, `C78_off_chain_partial`), also after the peer has come back (`C78_stays_off_partial`). A peer that does not read fills its channel of 1024 places; the announcement then waits while it holds the read lock of the peer's shard of the table, later peers get nothing, and reconnections in that shard wait too (`C78_stall_partial`).
64. **One unreachable peer cancels the second round of calls (C79).** `run_initiator` (`node/src/jam_node/mod.rs` 95-115) first calls the peers over which the node is preferred, pauses, and then calls all that are left. `connect_to_peers_internal` (`network/src/manager.rs` 238-273) returns the first error (`handle.await??`), and `run_initiator` passes it on with `?`, so a single peer that is not up yet ends the whole procedure; `run_node` logs the error and goes on, and nothing tries again later. Of nodes that are started one after the other, two stay apart for ever when the later one is not preferred over the earlier one but over some node still to come (`C79_sequential`, `C79_split_partial`), and any three validators have an order of starting with this outcome (`C79_any_three_partial`). Blocks are announced to direct peers only, so such a pair does not get each other's blocks. Moreover a second connection to a peer (both nodes have called) replaces the entry of the peer by one without stream handles until its own stream is in place (`network/src/peers.rs` 36-47), and blocks announced meanwhile pass the peer over without an error (`C79_gap_partial`); afterwards every interleaving leaves a usable handle (`C79_handle`).
65. **A node cannot be restarted (C80).** `init_node` (`node/src/jam_node/init.rs` 72) calls `set_genesis_state` on every start, without asking whether the database, whose path depends on the node only, already holds a state. `add_all_simple_state_entries` then finds the first entry present and returns `StateEntryAlreadyExists`, and `cli/src/main.rs` 33 ends with that error: after one successful start every later one fails until the database is deleted, although all the data is there (`C80_second_start_partial`, `C80_one_life_partial`, `C80_durable_partial`). The best header and the Merkle root are in memory only (`C80_root_lost_partial`). The same happens after a crash in the middle of the first start.
66. **A node that misses one block never catches up by itself (C80).** The importer accepts only blocks whose parent is its best header and drops the others; `up_streams.rs` 80-95 requests only the announced block (`max_blocks: 1`), and `get_blocks` is `unimplemented!()` for anything else. A node that was down, or started late, for a single block rejects every later block of the chain for ever (`C80_stuck_partial`), although it would accept all of them if it were given the missing one first (`C80_catches_up`).
67. **`ByteArray::from_hex` accepts truncated texts (C81).** A text with fewer than `2N` digits is filled up with zeros on the left (`common/src/types/mod.rs` 304-308), down to the empty text, which is read as the zero key or hash; the JSON reader `deserialize_hex_array` refuses the same texts, and `Vec::from_hex` refuses an odd number of digits (`C81_readers_partial`). A key or hash literal that has lost digits is therefore read as another key without an error. All present uses in the repository are full-length literals.
68. **`pages` could not open a page even of a proper inner memory (C51).** In modes 0 to 2 `host_pages` (`pvm/pvm-host/src/host_functions/refine/mod.rs` 372-378) clears the pages with the ordinary `write_bytes`, which wants them writable, before it sets their access types. So giving inner machines a memory of the right size would not be enough to repair `C51_pages_refused`: a request for pages of which one octet is not writable yet is answered `HUH` where the paper grants it (`C51_pages_closed`), and a page once closed or made read-only stays so in these modes. On pages that are writable, and in modes 3 and 4, the answer and the effect are the paper's (`C51_pages_proper_partial`).

## Results

Status per property with the theorems; the note says what is assumed or missing.

### C01 General natural-number codec round-trips — proved

Encoding any unsigned integer with the JAM variable-length codec and decoding the bytes followed by arbitrary further input returns exactly that integer and leaves exactly the further input unread; the encoding is never empty, never longer than 9 bytes, has the length reported by size_hint, and no encoding is a proper prefix of another.

Encoder, decoder and size hint transcribed; all u64 values, all suffixes.

Theorems: `C01_int_roundtrip`, `C01_int_length`, `C01_int_prefix_free`, `C01_int_too_large`, `C01_int_paper`.

### C02 Variable-length codec accepts only canonical encodings — partial

A byte string that decodes to an integer is the encoding of that integer, so that two different byte strings never denote the same value.

The full claim is false of the code: C02_noncanonical_accepted is a witness. The partial theorem shows the canonical form is the unique shortest accepted one.

Theorems: `C02_noncanonical_accepted`, `C02_shortest_is_canonical_partial`.

### C03 Fixed-width integer codec round-trips and rejects overflow — proved

Encoding a value in n little-endian bytes succeeds exactly when it is below 2^(8n) (n at most 8), yields exactly n bytes, and decoding them followed by anything returns the value and the rest; out-of-range values and sizes are errors, never truncation.

All widths and values, including rejection.

Theorems: `C03_fixed_paper`, `C03_fixed_roundtrip`, `C03_fixed_rejects`, `C03_fixed_decode_rejects`, `C03_fixed_canonical`.

### C04 Composite codecs round-trip — proved

Options, tuples, length-prefixed sequences, size-limited sequences, sorted maps and bit sequences of any self-delimiting element type decode back to the encoded value and leave the rest of the input untouched, at any nesting depth; a length prefix over the declared limit is rejected before any element is read.

Generic over a universe of wire types closed under nesting; map keys are integers in the universe, combinator lemmas hold for any strict order.

Theorems: `C04_roundtrip`, `C04_prefix_stable`, `C04_injective`, `C04_limit_rejected`, `C04_discriminator_rejected`, `C04_decoded_sizes`, `C04_decoded_ok`, `C04_normalizes`, `C04_bits_rejected`.

### C05 Bounded and fixed-size vectors keep their bound — proved

Through any sequence of pushes, extends, shift-pushes, removals and decodes a size-limited vector never holds more than its maximum; a rejected operation leaves it unchanged; shift-push keeps exactly the most recent MAX elements in arrival order and hands back the evicted one.

All operations of LimitedVec; the unchecked FixedVec constructors and zero-capacity shift_push violate the claim and are recorded as negations.

Theorems: `C05_bound_invariant`, `C05_failure_no_effect`, `C05_push_iff`, `C05_shift_keeps_recent`, `C05_shift_evicts`, `C05_shift_zero_panics`, `C05_fixed_checked`, `C05_fixed_unchecked_wrong_size`.

### C06 Merkle justifications verify for every leaf — proved

For a well-balanced tree over any non-empty list of items and any index in range, folding the produced co-path over the item reproduces the root; for a constant-depth tree the same holds after padding, all paths have the same length, and if the hash is collision-free no other leaf value can be justified at that index.

Hash function abstract; binding is stated as 'agrees or exhibits a concrete collision among the hashed strings'. Completeness, size, pages and page leaves.

Theorems: `C06_justification_verifies`, `C06_justification_length`, `C06_justification_binding`, `C06_page_justification`, `C06_page_leaves`, `C06_node_paper`, `C06_roots_paper`.

### C07 Mountain range append behaves as a binary counter over perfect trees — proved

After appending any sequence of n leaves, slot i of the range is occupied exactly when bit i of n is set, and its hash is the perfect-binary-tree root of the corresponding consecutive block of 2^i leaves, so the range depends only on the leaf sequence and can be extended incrementally forever.

Peaks characterised exactly; recursive variant agrees. Equality of ranges via super-peak conflates sizes (negation theorem).

Theorems: `C07_binary_counter`, `C07_count`, `C07_recursive_agrees`, `C07_eq_confuses_sizes`, `C07_super_peak`, `C07_binds`.

### C08 Shuffle is a permutation — proved

Shuffling a list by any sequence of random numbers at least as long as the list returns a rearrangement of exactly the same elements, every element once.

Permutation for every randomness stream, and equality with the paper's recursive shuffle.

Theorems: `C08_shuffle_perm`, `C08_shuffle_short`, `C08_shuffle_is_paper`, `C08_shuffle_with_hash_perm`, `C08_randoms`.

### C09 Guarantor assignment is balanced at every slot — proved

For every entropy and every timeslot each core is assigned the same number of validators (VALIDATOR_COUNT/CORE_COUNT), and rotating the assignment permutes cores without changing that count.

Any validators = k * cores; both chain specs give three per core. Reading entropy and validator sets from state is not modelled here.

Theorems: `C09_balanced`, `C09_three_per_core`, `C09_rotation_step`, `C09_assignment`.

### C10 PVM arithmetic instructions compute their specified functions — partial

For every operand value each arithmetic, shift, comparison, division, remainder and bit-counting instruction returns the mathematically specified result modulo 2^64 (sign-extended for 32-bit forms), including division by zero and the overflow case.

All 83 register/immediate ALU instructions, every operand. The signed remainder violates the claim when the dividend is the most negative value and the divisor does not divide it: BadRem is the exact failing set (C10_signed_rem_wrong).

Theorems: `C10_two_reg`, `C10_two_reg_imm`, `C10_three_reg_partial`, `C10_signed_rem_wrong`.

### C11 PVM memory is a protected byte map — partial

A successful write changes exactly the written range and a subsequent read of any range returns the latest written bytes; reads never change memory; an access touching any page without permission fails with no effect; read-only pages keep their content under any sequence of program accesses.

PARTIAL: proved for every history of loads, stores, permission changes and heap allocations; the two _partial theorems exclude allocations whose end passes 2^32. For those the code is wrong (C11_sbrk_wraps: read-only data becomes writable; C11_sbrk_truncates). Single-byte faults report an unaligned address (C11_byte_fault_unaligned).

Theorems: `C11_refines_byte_map`, `C11_read_after_write`, `C11_failed_store_no_effect`, `C11_fault_address`, `C11_byte_fault_unaligned`, `C11_sbrk_partial`, `C11_read_only_preserved_partial`, `C11_sbrk_wraps`, `C11_sbrk_truncates`.

### C12 PVM execution is bounded by gas — proved

Every program executed without host calls stops within its initial gas many instructions, gas never increases, each executed instruction is charged at least one unit, and the reported gas used never exceeds the limit.

All programs, states and host-function tables; every execution ends within gas+1 iterations. C12_sbrk_unpaid and C12_huge_limit record two deviations: sbrk takes effect before the gas check, and gas limits of 2^63 or more are negative from the start.

Theorems: `C12_terminates`, `C12_charge_exact`, `C12_out_of_gas`, `C12_host_calls_terminate`, `C12_gas_used`, `C12_huge_limit`, `C12_sbrk_unpaid`.

### C13 PVM control flow only reaches basic-block starts — partial

A jump, branch or dynamic jump taken by any program lands only on the start of a basic block, or the program panics (or halts at the halt address); execution started at an instruction boundary never executes from the middle of an instruction.

Partial only for the converse direction of block starts: the loader never looks at the instruction at index 0 (C13_first_terminator_ignored), so a block following a terminator at index 0 is not recognised. Everything that is recognised is a block start, and every jump, branch and dynamic jump lands on one.

Theorems: `C13_block_starts_partial`, `C13_targets_sound`, `C13_first_terminator_ignored`, `C13_step`, `C13_no_overlap`, `C13_no_instruction`, `C13_jump`, `C13_branch`, `C13_branch_imm`, `C13_dynamic_jump`.

### C14 Standard program memory regions are disjoint and in range — proved

Whenever the size check admits a program, the read-only data, heap, stack and argument regions built for it are pairwise disjoint, inside the 32-bit space, and above the forbidden low zone.

Every admitted program: regions as prescribed, separate, with the right bytes and permissions; the size check admits every decodable program. C14_read_only_escape shows sbrk wrap-around defeats the permissions.

Theorems: `C14_regions`, `C14_always_admitted`, `C14_heap_invariant`, `C14_registers`, `C14_read_only_escape`.

### C15 Accumulation gas admission takes the maximal affordable prefix — proved

The number of reports admitted for a gas budget is the largest i such that the first i reports' total accumulation gas stays within the budget; the admitted gas never exceeds the budget.

Admission proved maximal for all reports and budgets. Execution of a service is a parameter, constrained to use at most its limit and to pay 10 + gas per transfer (C70_service_pays proves both of every program); under that, rounds end, gas is accounted exactly and GasOverflow cannot occur without always-accumulate services. C15_always_overflow shows a block failing with them.

Theorems: `C15_max_prefix`, `C15_rounds_end`, `C15_maximal`, `C15_round`, `C15_no_overflow`, `C15_always_overflow`, `C15_parallel`, `C15_parallel_refused`, `C15_limit`, `C15_limit_wraps`.

### C16 Reports accumulate only after their dependencies — proved

The scheduled report sequence contains a report only after all its dependencies were accumulated earlier in the sequence or in history, never repeats a report, contains only offered or queued reports, and leaves behind only reports with an unmet dependency.

Proved for whole chains from genesis with any availability, slot gaps and gas cut-offs, and scheduling equals the least fixed point of the dependency relation.

Theorems: `C16_chain_ordered`, `C16_chain_no_repeat`, `C16_chain_only_offered`, `C16_least`, `C16_step`.

### C17 Preimage request life cycle — partial

Through any sequence of solicit, forget, provide and integrate operations a request's timeslot list stays at most three long and non-decreasing, follows requested -> available -> unavailable -> re-available, is removed only when never available or unavailable long enough, and a preimage is held exactly while its request says so.

PARTIAL: every call is one life-cycle step, slots stay ordered, provided and integrated preimages only make open requests available and carry the requested hash and length. The preimage of an available request can be lost (theorem C17_preimage_lost_partial), as the protocol itself specifies.

Theorems: `C17_calls_follow_life_cycle`, `C17_slots_ordered`, `C17_preimage_lost_partial`, `C17_provide_exact`, `C17_provide_enters`, `C17_integrate_enters`, `C17_preimages_hashed`.

### C18 Historical preimage lookup matches availability intervals — partial

A historical lookup returns a preimage at slot t exactly when t lies in one of the availability intervals recorded by the request, and for every slot within the retention period later calls, provided preimages and integrated preimages never change the answer, so all nodes evaluating a past work-package agree.

PARTIAL: answers are exactly the availability intervals, and within the retention window calls, provided and integrated preimages keep them, except for accounts asking for one hash under two lengths, where an answer can be lost (C18_answer_lost_partial).

Theorems: `C18_answer_is_availability`, `C18_calls_keep_answers_partial`, `C18_entering_keeps_answers`, `C18_answer_lost_partial`.

### C19 Service storage footprint is exact — proved

After any sequence of storage writes, solicitations and forgets the item and octet counters stored in the account equal the counts recomputed from its actual contents, hence the threshold balance is the one required by the current contents.

For every sequence of host calls on the sandbox, under the refinement conditions of C36 and with usage within the counters' range.

Theorems: `C19_footprint_exact`, `C19_threshold_exact`.

### C20 Host calls never leave a service below its threshold and conserve tokens — partial

No write, solicit, new-service or transfer call commits a caller balance below its threshold, and the total of balances plus tokens in flight is unchanged by transfers and service creation.

For every sequence of host calls on the sandbox, both contexts (conditions as C36). C20_round_conserved_partial lifts it to a merged round; it assumes each result conserves tokens, which C21 shows can fail.

Theorems: `C20_tokens_conserved`, `C20_solvent`, `C20_round_conserved_partial`.

### C21 Ejecting a service never duplicates tokens — partial

Ejecting a service moves its balance to the ejecting service exactly once: afterwards the ejected account no longer exists anywhere and total tokens are unchanged.

PARTIAL: holds when the ejected service has not run in the block and the identifier is not re-created; three theorems, one over two full rounds, show that otherwise tokens are minted.

Theorems: `C21_eject_moves_balance_partial`, `C21_eject_after_running_mints_partial`, `C21_registrar_mints_partial`, `C21_eject_next_round_mints_partial`.

### C22 New service identifiers are fresh and public — proved

The identifier chosen for a newly created service by an unprivileged caller is at least 2^16, below 2^32-2^8, and not that of an existing account; after creation the next candidate is again in range and free.

Identifier freshness for all calls; the search is first-free in ring order and terminates exactly when a public identifier is free.

Theorems: `C22_next_id_free`, `C22_created_id_fresh`, `C22_search_first_free`.

### C23 Failed accumulation rolls back to the last checkpoint — proved

If a service invocation panics or runs out of gas its committed effect is exactly the state at its last checkpoint call (or at its start), and if it halts normally the effect is its full state.

One accumulation from start to result, for every program: the effect is that of all calls on halt, of the calls up to the last checkpoint otherwise.

Theorems: `C23_checkpoint_saved`, `C23_effect`.

### C24 Privileges change only at the request of their holders — partial

Whatever programs the services of an accumulation round run, every change of the manager, the always-accumulate set, the assigners, the designate, the registrar, the authorizer queues or the staging validator set that the round commits was requested by a service entitled to it at the start of the round, with conflicts resolved as the Gray Paper's R(o, a, b).

PARTIAL: every committed privilege change is authorised for all programs and rounds, and designate and registrar follow R exactly. Deviations: the assigners' choices are lost once the manager blesses; a service blessing itself uses the registrar right inside its own context and the created account is committed; two such services make the round unmergeable. The new assigners are characterised exactly (C24_assigners_resolved): the manager's list if it blesses, else each assigner's own choice.

Theorems: `C24_assigners_resolved`, `C24_other_calls`, `C24_not_holder`, `C24_not_designate`, `C24_round_authority`, `C24_round_settled`, `C24_roles_resolved`, `C24_assigner_choice_lost_partial`, `C24_self_bless_creates_partial`, `C24_two_self_bless_block_partial`.

### C25 Ticket accumulator keeps exactly the lowest tickets — partial

After any sequence of additions the accumulator holds the EPOCH_LENGTH smallest tickets offered so far (in identifier order), in a form independent of arrival order, and every ticket of an accepted extrinsic is retained.

PARTIAL. For any heap with BinaryHeap's contract, any capacity and any number of tickets: the accumulator holds the lowest, independently of order and heap layout; encoding round trip; acceptance of an extrinsic characterised exactly; accepted tickets are all kept; the useless check is exact; over an epoch of blocks the accumulator is the lowest of everything offered. Missing: identifiers are not forced to be distinct - a ticket with an identifier already accumulated but another attempt is accepted (C25_same_id_partial); with identifiers that determine the attempt they are (C25_distinct).

Theorems: `C25_keeps_lowest`, `C25_order_independent`, `C25_heap_independent`, `C25_decode_encode`, `C25_accepted_all_kept`, `C25_accept_iff`, `C25_useless_exact`, `C25_useless_needs_limit`, `C25_epoch`, `C25_no_duplicates`, `C25_same_id_partial`, `C25_distinct`.

### C26 Slot sealer series is a permutation of the winning tickets — proved

The outside-in ordering used to assign winning tickets to slots uses every winning ticket exactly once, so each slot of the epoch has exactly one sealer; fallback keys always come from the active validators.

Outside-in order, choice of mode, fallback keys, every slot sealed after any chain of blocks, no failure on well-formed states, and the winning-tickets marker of an epoch is exactly the next epoch's sealers. Hashes and ring signatures are abstract; chain constants are parameters.

Theorems: `C26_outside_in`, `C26_never_stuck`, `C26_every_slot_sealed`, `C26_mode`, `C26_winners_seal_next`.

### C27 Dispute verdict sets stay disjoint and final — partial

Over any history of accepted dispute extrinsics no work report is in two of the good, bad and wonky sets, no verdict is ever changed or recorded twice, and an offender once recorded stays recorded exactly once.

PARTIAL. A dispute extrinsic is accepted exactly when it meets the specification; over any chain of blocks no report is in two of the three sets, verdicts are final and recorded once, offenders stay. Missing: a key that is both culprit and fault in one extrinsic is recorded twice (witness, with the bound two), verdicts of a future epoch are judged by the past set (witness), evidence about a report judged in an earlier block is always refused (the Gray Paper accepts it).

Theorems: `C27_accept_iff`, `C27_one_verdict`, `C27_sets`, `C27_final`, `C27_sorted`, `C27_offenders`, `C27_offender_once`, `C27_offender_twice_partial`, `C27_evidence`, `C27_consequences`, `C27_accountability`, `C27_future_epoch_partial`, `C27_late_offender_partial`.

### C28 Availability needs a two-thirds supermajority of distinct validators — proved

A pending report becomes available exactly when more than two thirds of the validators, each counted at most once, assure its core in the block; any two available quorums overlap in more than one third of validators.

Any number of validators, cores and assurances. Signature verification is a function; the active set of the quorum theorem has V entries.

Theorems: `C28_available`, `C28_released`, `C28_once`, `C28_quorum`, `C28_accept_iff`, `C28_total`, `C28_no_panic`.

### C29 At most one pending report per core and no silent loss — proved

Through any sequence of block steps a core holds at most one pending report; a guarantee is never placed over a live one; a report leaves only by becoming available, timing out or being judged against.

Over any chain. A judged report that shares its hash with another pending one may stay: the statement gives the colliding report explicitly. Judgements, timeouts and availability are characterised exactly.

Theorems: `C29_one_per_core`, `C29_pending`, `C29_never_over`, `C29_leaves`, `C29_judged`, `C29_timeout`.

### C30 State cache transactions: commit and rollback — partial

Through any sequence of reads, adds, updates, removals and clean-entry evictions between commits, reads see the latest uncommitted write, a rollback restores exactly the last committed state, a commit makes exactly the visible state durable, and pre-state reads return the last committed value.

PARTIAL: state cache model (state/src/cache.rs, manager.rs) over any list of reads, pre-state reads, adds, updates, removals, commits, stagings, finalizations, rollbacks and clean evictions. Every answer, the state after rollback and the committed state are those of a two-map transaction. Missing, and shown false by witnesses: pre-state reads and removals of keys added since the last commit (clean reads see the uncommitted value, a rollback then leaves a phantom, a re-added key panics the commit), and a cache that evicts dirty entries loses writes. The trie is an abstract durable map here; it is C32's subject.

Theorems: `C30_answers_partial`, `C30_rollback_partial`, `C30_commit_partial`, `C30_clean_read_sees_uncommitted`, `C30_rollback_leaves_phantom`, `C30_readded_key_panics`, `C30_evicted_write_is_lost`.

### C31 Database write-through cache is coherent — proved

Under any sequence of puts, deletes, batch commits and cache evictions a read returns the last durably written value.

Write-through cache over the database: every sequential schedule with any evictions is coherent, and interleaved operations are coherent as long as no two operations on one key overlap with a write among them; overlapping read/write and write/write schedules leave a stale cache (two witnesses).

Theorems: `C31_coherent`, `C31_read_last_write`, `C31_exclusive_schedules`, `C31_overtaken_read_goes_stale`, `C31_crossed_writes_go_stale`.

### C32 Incremental state root equals full merklization — partial

After committing any set of added, updated and removed entries the stored trie and root equal the Merklization of the resulting key-value map computed from scratch, regardless of the order in which the entries are processed.

PARTIAL: proved for every history of commits, staged blocks and finalizations in which no batch removes the last key (the code refuses that: C32_only_key_cannot_be_removed) and entries are legal (no add of a present key, no update or removal of a missing one; those fail, C32_adding_a_present_key_panics). Order independence needs a present key the batch keeps (C32_order_matters_for_the_only_key). Findings: a failed commit leaks into the next one, the root is lost on restart, and a crash between the two database writes loses long values. Database errors and the write-through caches (C31) are not in this model.

Theorems: `C32_history_partial`, `C32_same_map_same_trie`, `C32_batch_order_partial`, `C32_root_binds_map`, `C32_reopened_root`, `C32_only_key_cannot_be_removed`, `C32_order_matters_for_the_only_key`, `C32_adding_a_present_key_panics`, `C32_failed_commit_leaks`, `C32_torn_commit_loses_long_values`.

### C33 Trie node encoding round-trips — proved

Every leaf (embedded or hashed) and branch node occupies exactly 512 bits and decodes back to the same node; leaf and branch encodings never coincide.

Node codec of the state trie on bit lists: round trip, exact 512 bits, agreement with the Gray Paper bit strings, injectivity, the one forgotten bit of a branch, totality of the decoder. Witness: padding is not checked.

Theorems: `C33_nodes_round_trip`, `C33_encoding_is_gray_paper`, `C33_encodings_never_coincide`, `C33_branch_forgets_one_bit`, `C33_decoded_nodes_are_well_formed`, `C33_padding_is_not_checked`, `C33_paths_round_trip`.

### C34 State keys of different components never coincide — partial

The storage keys of protocol components, of service metadata and of different services' entries are pairwise distinct, and the service id can be recovered from any service entry key.

PARTIAL: components, metadata and different services' entries are exactly distinct, and the service is recovered; services numbered 256 and above are exactly distinct from components and metadata. An entry of services 1-16 or 255 equals a component or metadata key only with an explicit 27-byte hash prefix; two entries of one service share a key only with an explicit 27-byte truncated collision or as one of two aliases (witness) of lookups at the largest lengths.

Theorems: `C34_components_and_metadata_distinct`, `C34_service_is_recoverable`, `C34_entries_never_components_partial`, `C34_large_services_are_apart`, `C34_same_service_partial`, `C34_hashed_bytes_determine_item`, `C34_largest_lookups_alias`.

### C35 Ancestor set retains the most recent headers — proved

After any sequence of additions the ancestor set holds exactly the greatest (by slot) min(n, capacity) distinct headers added, and membership answers agree with that.

Every addition sequence, capacity and heap meeting its contract; membership characterised by counting later entries. With removals: refinement to a bounded record when a hash goes with one slot. remove() filters the heap by hash only: C35_removal_by_hash_disagrees shows set and heap parting otherwise.

Theorems: `C35_latest_kept`, `C35_contains_iff`, `C35_refines_record`, `C35_removal_by_hash_disagrees`.

### C36 Sandboxed account views refine the global state — partial

Reads through a service's sandbox return the latest sandboxed write or else the global value; applying the sandbox to global state yields exactly that view for every key; nothing else changes.

PARTIAL: refinement to plain maps for every call sequence and program, and write-back equals the view. Two theorems show where it fails: re-creating an ejected identifier, and ejecting a service whose metadata lost its snapshot.

Theorems: `C36_calls_refine`, `C36_answers_refine`, `C36_programs_refine`, `C36_commit_is_view`, `C36_first_round_end_to_end`, `C36_recreate_ejected_partial`, `C36_eject_after_running_partial`.

### C37 Authorizer pool stays bounded and consumes used authorizers — proved

Each block removes the used authorizers from each core's pool, appends the queue's entry for the slot, and keeps at most 8 authorizers, newest retained.

Any pool bound, queue length and chain; exact pool after each block and after idle chains, order, newest entry, and the consumption budget.

Theorems: `C37_step`, `C37_bounded`, `C37_idle`, `C37_sublist`, `C37_newest`, `C37_budget`.

### C38 Recent block history is bounded and root-linked — proved

The history contains the last 8 blocks in order; the state root recorded for each block except the newest is the prior state root announced by its successor.

From the empty history exactly, from any history for headers, and step by step.

Theorems: `C38_history`, `C38_step`, `C38_headers`.

### C39 Epoch entropy and validator sets rotate consistently — proved

On any slot increase, entropy and validator sets rotate exactly once per epoch boundary crossing and are unchanged (except current entropy accumulation) within an epoch.

Over any chain of blocks: validator sets and entropies are the last three snapshots at epoch openings; punished validators replaced by the null key in place; ring root always that of the pending set; epoch marker names what the epochs will use; slots increase.

Theorems: `C39_rotation`, `C39_punished_excluded`, `C39_pending_unpunished`, `C39_ring_root`, `C39_epoch_marker`, `C39_slots_increase`.

### C40 Ring-verifier cache returns the verifier of the requested validator set — partial

The ring verifier used to check tickets is always the one generated from the validator set the caller asked for.

PARTIAL. Epoch ring root: correct in every history (rejections, forks, task timings) or an explicit hash collision. Ticket verifier: correct when no epoch-starting block designates a staging set and the ring cache is put back after rejections; missing cases are false in the code (argument shadowed, requested set never compared), with witnesses C40_tickets_epoch_start_designation_wrong, C40_rejected_block_poisons_ring and C40_rejected_block_rotates_ring.

Theorems: `C40_epoch_ring_root`, `C40_ticket_verifier_partial`, `C40_block_requests`, `C40_tickets_epoch_start_designation_wrong`, `C40_rejected_block_poisons_ring`, `C40_rejected_block_rotates_ring`, `C40_punished_zeroed`.

### C41 Host-call data windows are clamped — proved

For data-returning host calls the bytes written are exactly the requested window clamped to the data, the returned length is the full length, and nothing is written on failure.

fetch, lookup, read, info: the window octet by octet, on the sandbox.

Theorems: `C41_window_written`, `C41_calls_serve_datum`, `C41_info_layout`.

### C42 Loading arbitrary code never crashes the node — partial

Loading any octet string as PVM code yields a program or an error, and every code and bitmask of equal length is a program, as in the Gray Paper.

False of the code: the loader panics on missing operand bytes and huge jump-table lengths and refuses instructions longer than 16 bytes. The exact set of inputs that load, fail or crash is proved.

Theorems: `C42_loads_partial`, `C42_missing_operand_panics`, `C42_long_instruction_refused`, `C42_huge_table_panics`, `C42_panic_causes`.

### C43 The accumulation queue and history are sliding windows — proved

Across blocks with any slot gaps, the waiting queue holds exactly the entries queued in the last E slots with accumulated packages removed, skipped slots are empty, entries are considered oldest first, and the accumulation history holds the newest E sets.

All ring contents, epoch lengths and slot gaps.

Theorems: `C43_queue_window`, `C43_oldest_first`, `C43_history_window`.

### C44 Parallel accumulations are isolated and merge without conflict — proved

In a merged round every account ends with the metadata its own service left it, or the one service that created or ejected it, or unchanged; a round in which two services create or eject the same identifier is never merged.

All rounds whose sandboxes are consistent, whose hosts exist and are not ejected in the round.

Theorems: `C44_merge_isolated`, `C44_round_reports`, `C44_conflict_rejected`.

### C45 No work report is placed twice — proved

Along a chain with distinct header hashes no work package is reported twice with the same anchor, and no package is reported again within the remembered blocks, twice in one block, while pending, or while known to accumulation.

Header hashes along the chain are assumed distinct (a repetition would be a collision of header hashes). The anchor is part of the report, so no report is placed twice.

Theorems: `C45_once`, `C45_package`.

### C46 Guarantees are accepted exactly when properly guaranteed — proved

The guarantees of a block are accepted exactly when each report is signed by two or three distinct unbanned validators assigned to its core in the current or previous rotation, is authorized by the core's pool, anchored in a remembered block, new, within its limits, and has its dependencies met; the reporters returned are exactly the signers.

The gas limit per core is below 2^64-1. Signatures, hashes, guarantor assignments (see C09), ancestor lookup and accumulation state are inputs.

Theorems: `C46_accept_iff`, `C46_placed`, `C46_reporters`.

### C47 Blocks and work data have one wire form, bound by the header hash — partial

Blocks, headers, extrinsics, work reports and work packages are written in the layout of the Gray Paper and read back exactly; the header hash determines the whole block, extrinsics and work reports included, up to explicit hash collisions; and every value of the types has its own encoding.

PARTIAL only in two places: segment indices from 2^15 on (the u16 type admits them) alias the other variant of an import, C47_import_index_aliases; and sets and dictionaries are accepted unsorted and with duplicates, C47_set_decoding_not_canonical. Layouts, round trips and binding of the header hash are proved for all values of the types.

Theorems: `C47_block`, `C47_report`, `C47_package_partial`, `C47_import_index_aliases`, `C47_header_binds`, `C47_block_binds`, `C47_set_decoding_not_canonical`.

### C48 Decoding hostile bytes never crashes the node — partial

Decoding any octet string received from the network or from a service as a block, work package, work report or service code returns a value or an error.

The full claim is false of the code: Vec<T> and ByteSequence reserve memory for the announced length before reading, so lengths of 2^63 bytes or more panic with capacity overflow (C48_block_decoder_panics, C48_header_decoder_panics, C48_service_code_panics). The partial theorem covers inputs without the bytes 0xFE and 0xFF; types without growing vectors never panic. Allocations that are in range but exceed the machine's memory are not modelled.

Theorems: `C48_vec_panics_iff`, `C48_block_decoder_panics`, `C48_header_decoder_panics`, `C48_service_code_panics`, `C48_no_panic_partial`, `C48_bounded_types_no_panic`.

### C49 Octet strings are carried as raw bytes — partial

The authorization trace handed to services in accumulation operands and the metadata of service code are serialized as a length and the raw octets, as in the Gray Paper.

The full claim is false of the code: both fields are Vec<u8> and go through the integer codec byte by byte. C49_operand_iff says exactly when the operand is right; service code is parsed correctly when its metadata has no byte from 128 on, and C49_service_code_shifted shows the first code byte swallowed otherwise.

Theorems: `C49_operand_iff`, `C49_service_code_partial`, `C49_service_code_shifted`.

### C50 Every instruction does what the Gray Paper says, from its bytes to the new state — partial

For every loaded program and machine state, one step of the interpreter reads the instruction's operands from the code as the Gray Paper prescribes and leaves exactly the registers, memory, program counter, gas and outcome of the Gray Paper's step; hence so does a run of any length.

PARTIAL: proved for every program, state and instruction except where the code differs from the paper, each shown by a theorem: host-call numbers above 255 (C50_host_number_truncated), ranges that leave memory at the top (C50_past_end_error), a store fault resets the program counter (C50_store_fault_resets_pc; C50_step does not constrain the counter after a fault), jumps to the position after a block-ending first instruction (C50_second_instruction_rejected), signed remainders that overflow (C10), and sbrk (C11). The paper's step is shown to be a function (C50_paper_deterministic), and runs of any length follow (C50_run_partial).

Theorems: `C50_step_partial`, `C50_paper_deterministic`, `C50_run_partial`, `C50_host_number_truncated`, `C50_past_end_error`, `C50_store_fault_resets_pc`, `C50_second_instruction_rejected`.

### C51 The refinement host functions do what the Gray Paper says — partial

historical_lookup, export, machine, peek, poke, pages, invoke and expunge return the Gray Paper's results, and change the inner machines, the exported segments and the caller's memory and registers exactly as it prescribes; an inner machine runs by the paper's instruction set with its own memory.

PARTIAL: export, machine, peek, poke, expunge and historical_lookup are shown to follow the paper (C51_calls_partial, C51_historical), pages on all but three kinds of request (C51_pages_partial) and, for machines with a proper memory, which the code never makes, on all requests for writable pages and in modes 3 and 4 (C51_pages_proper_partial; missing there: pages not yet writable, where C51_pages_closed shows that the code refuses what the paper grants), invoke whenever it returns (C51_invoke_partial, C51_host_number_told), and finished inner runs to be the paper's (C51_inner_run_partial). The full claim is false of the code: inner machines never have memory (C51_no_inner_memory), so pages is always refused (C51_pages_refused), peek and poke never succeed (C51_peek_poke_refused), an inner load or store aborts the refinement (C51_inner_access_aborts) and an inner sbrk crashes the thread (C51_inner_sbrk_crashes); further departures are C51_pages_crash, C51_pages_wrap_granted, C51_host_number_lost, C51_empty_range_panics, C51_gas_limit_aborts, C51_id_not_least and C51_out_of_gas_wraps. Every result of refinement's own calls costs ten units and is out of gas exactly below ten, then without effect (C51_gas).

Theorems: `C51_calls_partial`, `C51_invoke_partial`, `C51_inner_run_partial`, `C51_id_not_least`, `C51_no_inner_memory`, `C51_pages_refused`, `C51_pages_partial`, `C51_peek_poke_refused`, `C51_inner_access_aborts`, `C51_inner_sbrk_crashes`, `C51_pages_crash`, `C51_pages_wrap_granted`, `C51_host_number_lost`, `C51_empty_range_panics`, `C51_gas_limit_aborts`, `C51_out_of_gas_wraps`, `C51_historical`, `C51_gas`, `C51_pages_proper_partial`, `C51_pages_closed`, `C51_host_number_told`.

### C52 Inner machines are isolated and exports only grow, within their limit — proved

Along every sequence of refinement host calls: a call changes no inner machine but the one it names, never its code; numbers of machines are never reused; exported segments are only appended, are all 4104 octets long, and never exceed 3072 together with those of earlier items; a call that ends the program changes nothing.

For every sequence of calls starting from the empty context of a refinement.

Theorems: `C52_isolated`, `C52_ids_fresh`, `C52_exports`.

### C53 On-chain statistics count what happened — partial

After any chain of blocks each validator's current and previous entries count exactly the blocks, tickets, preimages, octets, guarantees and assurances of the epoch concerned; core and service entries hold exactly the sums over the latest block, independent of map iteration order; the transition panics only on indices outside the validator set or the cores.

PARTIAL: validators over any chain of blocks, services and the other core fields are right; the data-availability load of a core is wrong unless the number of exported segments is a multiple of 64 (C53_da_load_iff, C53_da_load_wrong). Counters are exact modulo their width (C53_core_exports_wrap shows one wrapping). The active set is taken to hold one key per validator (it is a FixedVec).

Theorems: `C53_current_epoch`, `C53_previous_epoch`, `C53_cores_partial`, `C53_da_load_iff`, `C53_services`, `C53_total`, `C53_da_load_wrong`, `C53_core_exports_wrap`.

### C54 Erasure-coded data is recovered from any sufficient set of chunks — proved

Encoding any data yields the systematic column-wise coding of the Gray Paper over the padded data, and from any k of the n chunks recovery returns exactly the padded data; with fewer than k chunks it reports so.

The Reed-Solomon library is a parameter with the erasure-correcting property (Mds) as hypothesis; toy_mds shows it satisfiable. The property is about chunks that the encoder made: C54_short_chunk and C54_chunks_unchecked show what recovery does with chunks of unequal or odd length (crash, octet lost), and C54_zero_pad_empty that zero_pad of nothing adds a whole block where the Gray Paper adds nothing.

Theorems: `C54_encode`, `C54_recover`, `C54_insufficient`, `C54_short_chunk`, `C54_chunks_unchecked`, `C54_zero_pad`, `C54_zero_pad_empty`.

### C55 The availability specification commits to the package's data — proved

Every page of the paged proofs fits its segment, reads back and leads to the segment root; a page that leads to the segment root holds the right leaf hashes, and a validator's share that leads to the erasure root is the right share, up to explicit hash collisions; the specification's fields are those of the Gray Paper.

The hash is a parameter with 32-octet outputs; bindings are 'equal or an explicit collision'. C55_count_wraps: with 2^16 segments the count in the specification is 0 (C55_specs needs fewer than 2^16 segments and a bundle below 2^32 octets).

Theorems: `C55_paged_proofs`, `C55_segment_binding`, `C55_erasure_root`, `C55_share_binding`, `C55_specs`, `C55_count_wraps`.

### C56 The auditable bundle reads back and has the Gray Paper's layout — partial

Encoding a work package with its extrinsics, imported segments and justifications and decoding it gives it back, whatever follows, and the encoding is that of the Gray Paper.

PARTIAL: round trip for all bundles of matching shape; the layout is the Gray Paper's exactly when no octet of an imported segment is 128 or more (C56_layout_partial), because segments pass through the integer codec octet by octet; C56_length counts the surplus. C56_shape_unchecked: the encoder does not check the shape, so two different values have one encoding.

Theorems: `C56_roundtrip`, `C56_layout_partial`, `C56_length`, `C56_shape_unchecked`.

### C57 Work packages are limited as the Gray Paper says — partial

The validations of a work package accept exactly the packages within the Gray Paper's limits on exports, imports, extrinsics, total size and gas; within them every count fits the fields of a work digest.

PARTIAL: counts and size are exact; gas only while the sums stay below 2^64 (C57_gas_partial; C57_gas_modulo says what is compared in general, C57_gas_wraps is a counterexample). Nothing in the repository calls the validations.

Theorems: `C57_counts`, `C57_size`, `C57_gas_partial`, `C57_gas_modulo`, `C57_gas_wraps`, `C57_countable`.

### C58 Work reports are computed as the Gray Paper says — partial

A computed report carries the authorizer's trace and one digest per item in order, with the item's fields; refinement is called with the item's index and the exports declared before it; results and exports are those of the Gray Paper's function, and trace and outputs together stay within the size limit.

PARTIAL: frame, size limit, offsets and digests hold; results agree with the Gray Paper until an output is turned down (C58_digests_partial), exports if moreover failing items declare none (C58_exports_partial). Departures: C58_oversize_spreads, C58_oversize_differs, C58_bad_exports_counted, C58_zero_segments_dropped, C58_lookup_multiplicity, C58_counts_wrap. Import segments, extrinsic data, bundle and lookup table are unimplemented in the code and parameters here; C58_never: as it stands the function never returns a report.

Theorems: `C58_frame`, `C58_size`, `C58_digests_partial`, `C58_exports_partial`, `C58_oversize_spreads`, `C58_oversize_differs`, `C58_bad_exports_counted`, `C58_zero_segments_dropped`, `C58_lookup_multiplicity`, `C58_made`, `C58_counts_wrap`, `C58_never`.

### C59 fetch serves the Gray Paper's data in every invocation — partial

In authorization, refinement and accumulation, for every selector and indices, fetch gives the octets the Gray Paper gives (constants, entropy, trace, extrinsics, imports, package and its parts, inputs) and NONE exactly when the paper does.

PARTIAL: holds for every selector but 11 (C59_fetch_partial), with operands whose traces have no octet of 128 or more (the C49 departure) for selectors 14 and 15. Selector 11 is wrong whenever the package has an item (C59_summaries_length, C59_summaries_wrong). C59_own_item_unchecked: indices that panic.

Theorems: `C59_fetch_partial`, `C59_summaries_length`, `C59_summaries_wrong`, `C59_own_item_unchecked`.

### C60 State components survive the state trie in the Gray Paper's layout — partial

For every component of the state (authorizer pools and queues, history, Safrole, disputes, entropy, validator sets, pending reports, time slot, privileges, statistics, ready queue, accumulated history, last outputs) and every service entry, saving gives the Gray Paper's octets and loading gives the component back; states agreeing in all entries are equal.

All sixteen components plus metadata, lookups, storage and preimage entries, decoder and encoder, and the state as a whole. PARTIAL in the statistics only: service identifiers take four octets instead of the Gray Paper's integer encoding, proved as C60_statistics_differ (the round trip holds). The allocator's bound on reserved capacity is a parameter of the well-formedness predicates.

Theorems: `C60_authorizers`, `C60_history`, `C60_small`, `C60_safrole`, `C60_heap_order`, `C60_reports`, `C60_privileges`, `C60_statistics_partial`, `C60_accounts`, `C60_reload`, `C60_injective`, `C60_statistics_differ`, `C60_accumulator_cut`, `C60_lookups_panic`, `C60_trailing`.

### C61 Programs are invoked as the Gray Paper prescribes — partial

Standard program blobs are accepted exactly when they are the paper's layout; every host-call octet reaches its function or answers WHAT; the program cache answers what loading would; a program starts in the prescribed state and gas used and result are those of R; refinement and authorization give BAD, BIG or the result of the code run with the paper's arguments, gas and limits.

PARTIAL: the host-call table, the standard program format (accepted iff it is the layout, unambiguous), the cache (agrees with loading or exhibits a hash collision), the initial state, R, and the glue of refinement and authorization are proved. Departures proved beside: malformed blobs and unloadable code end in an error instead of a panic (C61_malformed), halting with register 7 at or above 2^32 is an error (C61_halt_high), undecodable service code is an error or a thread panic instead of BAD (C61_undecodable), payload octets above 127 change the arguments (C61_refine_args), metadata do not count towards BIG. Missing: runs ending in a host or machine error, and runs after which the low zone is accessible (C14).

Theorems: `C61_what`, `C61_table`, `C61_unknown`, `C61_standard`, `C61_unambiguous`, `C61_cache`, `C61_invoke_partial`, `C61_malformed`, `C61_long_args`, `C61_halt_high`, `C61_crash`, `C61_gas_call`, `C61_fetch_call_partial`, `C61_refine_bad`, `C61_refine_big_partial`, `C61_refine_args`, `C61_refine_partial`, `C61_authorize_bad`, `C61_authorize_partial`, `C61_undecodable`.

### C62 Importing blocks follows the chain rules — partial

A node at a point of a chain accepts exactly the blocks that satisfy the header rules and the transition there; the accepted blocks of any run form a chain with increasing slots whose last header hash determines its state, rejected blocks leave nothing but the ring cache, and authored blocks are accepted by every node at the same point.

PARTIAL: completeness of acceptance, chains, slots, commitment of the header hash to the state, agreement of nodes and acceptance of authored blocks are proved for any transition function. Departures proved beside: slots count as begun six seconds early (C62_early); blocks with a zero parent hash are accepted unchecked and break the chain (C62_zero_parent_unchecked, C62_zero_parent_breaks); an author does not record its own block among its ancestors (C62_author_ancestors) and gets stuck when its second phase fails (C62_author_stuck). Rejected blocks may change the ring cache (C40). The phases themselves are parameters.

Theorems: `C62_complete`, `C62_sound_partial`, `C62_early`, `C62_history_partial`, `C62_slots`, `C62_commits`, `C62_agree_partial`, `C62_zero_parent_unchecked`, `C62_zero_parent_breaks`, `C62_authored`, `C62_author_ancestors`, `C62_author_stuck`.

### C63 The fuzzing target answers for forks as if each block were imported alone — partial

In every session the target's replies are right: each block is judged and its root computed on its parent's state, finalised or staged, siblings do not influence each other, rejected blocks leave no trace, and the state for a hash is exactly the state after that block; a second start closes the session.

PARTIAL: proved for all sessions, with header hashes in play assumed different and blocks with a zero parent hash left out (C62). States are exact if blocks report all keys they add; preimages are not reported, so entries disappear from answers (C63_unreported_key). Departures proved beside: an invalid child finalises its parent and drops the siblings (C63_invalid_child); unknown hashes get the finalised state (C63_unknown_hash). The socket and the codec of messages are in C66.

Theorems: `C63_session_partial`, `C63_siblings`, `C63_invalid_child`, `C63_unreported_key`, `C63_unknown_hash`, `C63_second_start`.

### C64 The executor's concurrent tasks give the same result under every schedule — partial

For each group of tasks that the block executor spawns together, every interleaving of their reads, database fetches, cache insertions and changes ends with the same results and the same state as the tasks run one after another on the prior state, and no write is lost.

PARTIAL: middle and last phases are proved for every schedule (the middle one needs the entropy cached, which C64_entropy_ready shows the first phase always leaves). The first phase at an epoch change is proved when the active set (and with disputes the past set) is cached as parsed entries; otherwise it is false: a clean read that misses the cache overwrites a concurrent write (C64_cold_cache_loses, C64_raw_cache_loses), and an eviction between look-up and change fails the task (C64_eviction_fails). Evictions by other tasks, cancellation after an error and the memory model of the cache's locks are not modelled; each cache operation is one atomic step.

Theorems: `C64_any_schedule`, `C64_terminates`, `C64_first_phase_partial`, `C64_epoch_sets_partial`, `C64_entropy_rotation_partial`, `C64_entropy_ready`, `C64_middle_phase`, `C64_last_phase`, `C64_cold_cache_loses`, `C64_raw_cache_loses`, `C64_eviction_fails`.

### C65 The host functions of accumulation do what the Gray Paper says — partial

Each host call of an accumulating program, gas to provide with checkpoint and unknown numbers, returns the registers, memory writes, gas charge or panic the Gray Paper prescribes and changes the regular and the exceptional context exactly as it prescribes; sequences of calls run to their end without aborting.

PARTIAL: every host call of accumulation is shown to satisfy a relational transcription of the Gray Paper's appendix B (relation with one rule per outcome, shown deterministic by C65_answer_unique), on plain maps and, through C36, on the sandboxed accounts of the code. Assumed: sound and solvent accounts, counters with room, sums of two balances below 2^64, slot plus expiry below 2^32, a free public identifier, gas below 2^63-1; excluded are empty ranges at addresses of 2^32 or more, solicitations of 2^32 octets or more and blobs of exactly 2^32 octets, where the code departs from the paper (C65_far_empty_range_partial, C65_long_solicit_partial, C65_expiry_wraps_partial). The datum of fetch is a parameter.

Theorems: `C65_calls_partial`, `C65_answer_unique`, `C65_sandbox_partial`, `C65_sequences_partial`, `C65_no_gas`, `C65_far_empty_range_partial`, `C65_long_solicit_full`, `C65_long_solicit_partial`, `C65_expiry_wraps_partial`.

### C66 Messages of the fuzzing protocol survive the socket and sessions answer in order — partial

Every message reads back from its frame however the stream is cut into pieces and whatever follows; a frame cut short is never read as a message; a whole session writes exactly the frames of the answers of the fork-handling target, in order; a session that fails leaves nothing behind for the next one.

PARTIAL: the codec round-trips for all messages; the layout is that of the protocol exactly when the texts (peer name, error text) have only octets below 128 (C66_layout_partial: others are written as two octets), and the session theorem assumes this of the answers and that each is shorter than 2^32 octets. The text of an error and the UTF-8 check are parameters, the transition function is that of C63. Octets after a message inside its frame are accepted (C66_junk_accepted); a state count from 2^63/56 on panics the session, which is caught and the target reset (C66_panic). The allocation of the receive buffer, timing and the logging are not modelled.

Theorems: `C66_roundtrip`, `C66_layout_partial`, `C66_stream`, `C66_truncated`, `C66_junk_accepted`, `C66_pieces`, `C66_session_partial`, `C66_isolated`, `C66_panic`.

### C67 An announced block reaches the importer of the peer — partial

Every announced block is asked for, the node that holds it answers with exactly that block, and the answer is delivered to the importer; a node serves only blocks whose header and extrinsics have the hashes they are stored under; requests and announcements that are cut short or wrong do not disturb the others; of two nodes exactly one opens the connection.

PARTIAL: the property holds when every announcement, request and response arrives in one piece of at most 1024 octets (C67_announcements_partial, C67_answer_partial, C67_delivery_partial, C67_propagation_partial), and the violations are proved: coalesced announcements lose all but the first (C67_coalesced), a cut one is passed over (C67_cut), announcements of the first block of an epoch exceed 1024 octets from ten validators on (C67_epoch_announcement_long), a cut request is dropped (C67_request_cut), a block above 1024 octets never arrives (C67_large_lost), an announced block is not served until its state transition ends and an importing node never serves blocks with extrinsics (C67_not_served), one panicking stream ends the service on connections the node opened (C67_panic_stops). QUIC itself, reconnection, the channel to the importer and CE streams other than 128 (which the code does not implement) are not modelled.

Theorems: `C67_kinds`, `C67_announcements_partial`, `C67_coalesced`, `C67_cut`, `C67_epoch_announcement_long`, `C67_answer_partial`, `C67_request_cut`, `C67_panic_stops`, `C67_delivery_partial`, `C67_large_lost`, `C67_propagation_partial`, `C67_served`, `C67_not_served`, `C67_initiator`, `C67_later`, `C67_peers`.

### C68 Every slot has one author and its block is accepted — partial

The clock gives the slot of the time and the scheduler visits every slot once; what is predicted for a slot is what its block will find; the nodes agree on one author per slot, the one the Gray Paper's rule names; the block this author makes is accepted by every node at the same point, and the author ends in the same state as they do.

PARTIAL: the clock wraps after 2^32 slots (C68_clock_wraps); the scheduler never starts if the slot changes between its two clock readings (C68_first_tick_partial); late ticks leave out a slot and handle the next twice (C68_late); in ticket mode every node panics, so a successful contest costs a whole epoch (C68_ticket_mode, C68_ticket_tasks, C68_contest_lost); the author's index is that of the genesis set and its slot is read again, so blocks of a moved validator or a slow node are refused by all others while its own node keeps them (C68_stale_index, C68_slow, C68_alone); a block refused while authoring throws away the author's writes (C68_interrupted, C68_diverges). Proved without restriction: predictions, one author per slot, no second block by a node with another key and the same Safrole state (C68_no_rival), the fallback rule, and the exact condition under which an authored block is accepted. The first phase of a block is connected to the Safrole model by the hypothesis Carries; interleavings are at the phases of the author.

Theorems: `C68_clock`, `C68_clock_wraps`, `C68_first_tick_partial`, `C68_ticks`, `C68_ticks_order`, `C68_late`, `C68_prediction`, `C68_decided`, `C68_one_author`, `C68_whose_new`, `C68_whose`, `C68_ticket_mode`, `C68_contest_lost`, `C68_accepted_iff`, `C68_stale_index`, `C68_slow`, `C68_alone`, `C68_accepted_partial`, `C68_interrupted`, `C68_diverges`, `C68_no_rival`, `C68_ticket_tasks`, `C68_unready`.

### C69 Work is accumulated only after guarantee and assurance, once and in order, over whole chains of blocks — partial

Over a chain of accepted blocks from the start: whatever is accumulated was guaranteed in an earlier block by two or three assigned validators who are no offenders and then assured by more than two thirds; no package is pending, waiting or accumulated twice; what leaves its core without being assured is never accumulated; dependencies come first; offenders leave all validator sets after three epochs; each component of the state depends only on the inputs the Gray Paper names; components keep their sizes, no block is refused for an internal reason and a block without extrinsics can always follow.

The whole state transition of a block wired from the models of the areas as in the executor, and chains of blocks. Partial only for the order of slots: the transition lets slot 0 repeat, shown by C69_slot_partial. Executing services, preimages and the last accumulation slot are parameters; C69_provenance, C69_dependencies_first, C69_once, C69_gone and C69_shape ask that no block after the genesis is in slot 0, and C69_once and C69_gone that headers are distinct and that a package fixes its anchor.

Theorems: `C69_provenance`, `C69_dependencies_first`, `C69_once`, `C69_gone`, `C69_punished`, `C69_no_guarantee`, `C69_jury`, `C69_new_work`, `C69_belt`, `C69_depends_header`, `C69_depends_body`, `C69_shape`, `C69_refused`, `C69_progress`, `C69_slot_partial`.

### C70 Accumulating a block is a finite sequence of faithful rounds — partial

Whatever the programs of the services, the accumulation of a block ends; it is a sequence of rounds in which exactly the existing services that are called or privileged run, once each, on one state, with all the gas and transfers meant for them; each round takes the longest prefix of reports that fits the gas left; the gas accounted never exceeds the block's limit plus what transfers brought, and without always-accumulate services the accounting never fails; a privilege, queue or staging set changes only by the word of the service entitled to it; tokens are neither made nor destroyed except those sent to services that do not exist.

The pipeline of C15 with the execution of C20/C36 and the merge of C21/C34 in place of C15's parameter: its assumption on services is now C70_service_pays, proved for every program. Broken with always-accumulate services whose gas sums to 2^64 (C70_gas_error_partial). C70_tokens_partial assumes that each service alone conserves tokens (C20, under C36's conditions).

Theorems: `C70_service_pays`, `C70_rounds_end`, `C70_no_gas_error`, `C70_gas_error_partial`, `C70_trace`, `C70_gas`, `C70_authority`, `C70_manager`, `C70_roles`, `C70_tokens_partial`.

### C71 Blocks keep every account consistent and solvent and never make tokens — proved

After the accumulation of a block is written back, footprints are still exact, every preimage was requested, every account can pay its deposit and the tokens held are those held before less what was sent to missing services; services that did not run keep their metadata or are ejected; this holds over histories of blocks of any length with preimages between them, provided no program fills an account beyond the counters, takes the identifier of a committed account or ejects one that runs in the block; programs without the calls write, new, eject, solicit and forget always meet this.

All histories and programs under the stated care of the programs; that the care is needed is shown by the theorems of C21 and C36 on ejecting services that run and re-creating identifiers.

Theorems: `C71_accounts`, `C71_bystander`, `C71_modest`, `C71_history`.

### C72 Over whole chains, services act only on proven work and every effect of a block comes from them — proved

An accepted block's accounts, privileges, queues, staged validators and outputs are exactly what rounds of service executions leave that take the reports the block accumulates; over a chain from the start, every report a service works on was guaranteed and assured before, no package is worked on twice and dependencies come first; a key becomes a validator only if the designate service staged it, two epochs before it is active; an authorizer is in a core's pool only if the core's assigner put it there; preimages enter only if they are in order and asked for; accounts stay consistent and no tokens are made; all sizes programs can influence stay right.

All chains and programs. C72_accounts asks that the programs are careful as in C71; C72_modest shows this of programs without the calls write, new, eject, solicit and forget. C72_authorizers asks that a hash survives the translation between octets and numbers; C72_provenance and C72_once take over the conditions of C69 (positive slots, distinct headers, packages that fix their anchor). An error while writing back is modelled as a missing entry; C72_accounts_block shows that there is none.

Theorems: `C72_block`, `C72_accounts_block`, `C72_accounts`, `C72_modest`, `C72_shape`, `C72_refused`, `C72_preimages`, `C72_provenance`, `C72_once`, `C72_validators`, `C72_authorizers`.

### C73 A block's accumulation fails only for the known causes — partial

An error in the accumulation of a block comes from a round whose always-accumulate gas is beyond the budget, from two services that create or eject the same account, or from a due service whose stored code does not decode or load, that finds no identifier free, or whose program reaches one of six offending configurations (access past the end of memory, more heap than there is, a gas debt beyond 2^63, a transfer with 2^63 - 10 gas or more, a new account with no identifier left, an exit whose register 7 is no address); no host call fails otherwise. Each of the program's offences does abort a block, and broken code of a privileged or always-accumulate service stops accumulation, or the chain, for good.

PARTIAL: what one would want - that no program can make a block fail - does not hold. C73_causes lists all causes for blocks on consistent accounts whose programs are careful as in C71; C73_modest drops the carefulness for programs without write, new, eject, solicit and forget. C73_aborts_partial and C73_debt_partial exhibit programs that abort a block; C73_chain_stops and C73_always_stops show how broken code stops a chain.

Theorems: `C73_host_calls`, `C73_service`, `C73_causes`, `C73_modest`, `C73_loader`, `C73_broken_code_stops`, `C73_gift_aborts`, `C73_aborts_partial`, `C73_debt_partial`, `C73_chain_stops`, `C73_always_stops`.

### C74 Along a chain preimages lie under their hashes and request histories are in order — proved

If every stored preimage lies under its hash and every request history has at most three slots, in order and not in the future, then both hold after any chain of accepted blocks, whatever the services execute and whatever preimages the blocks bring; and the work of every accepted guarantee is for an existing service, names the code hash in its account and comes with the gas it asks for.

All chains and programs. C74_hashed and C74_slots ask that the programs are careful as in C71; C74_modest shows this of programs without the calls write, new, eject, solicit and forget. C74_guaranteed asks for a gas maximum below 2^64 - 1.

Theorems: `C74_hashed`, `C74_slots`, `C74_modest`, `C74_guaranteed`.

### C75 The pool of extrinsics keeps what it accepts, also under concurrent use — partial

Whatever is called, the pool answers as a log of the additions it accepted: it refuses an addition exactly when it holds as many different hashes as it may, never holds more, and a query lists the accepted entries of its type and slot in order. When any number of threads add and query at once, all answers are those of one order of the calls that respects time, and threads never block each other for ever.

PARTIAL: sequential behaviour and linearizability are proved for every history and interleaving; freedom from deadlock is proved only when all calls are of one kind (or the queries took the locks in the order of the additions), because the code can deadlock (C75_deadlock); a repeated addition is listed repeatedly (C75_repeats). Removal is unimplemented in the code.

Theorems: `C75_log`, `C75_bound`, `C75_exact`, `C75_repeats`, `C75_linear`, `C75_deadlock`, `C75_progress_partial`.

### C76 The state manager as a whole is a transaction on a map with a Merkle root — partial

With its cache of decoded entries, the Merkle trie behind an actor and the state database, the state manager answers every read and write as a transaction on a plain map does, through commits, staged and finalized blocks, rollbacks and cache evictions; the root it serves is the Merklization of the encoded committed map, depends on that map only, and commits to it. If the actor dies it stays dead, and nothing more is stored.

PARTIAL: all histories in which no committed key is removed and added again between two commits, one key always stays, and pre-state reads are of keys that were not just added; the other histories violate the property in the code (C76_readd_kills_actor, C30_*, C32_only_key_cannot_be_removed). Commands of the actor run one at a time (concurrent callers: C64); database errors are left out.

Theorems: `C76_store_partial`, `C76_roots_agree_partial`, `C76_root_binds_partial`, `C76_no_silent_loss`, `C76_actor_death`, `C76_readd_kills_actor`, `C76_components_partial`, `C76_components_bound_partial`, `C76_typed_reads`.

### C77 Reads during a commit see the committed state — partial

Tasks that read state keys while another task commits the dirty cache always get the value that was visible when the commit began, never an error, in every interleaving of the cache, trie and state database accesses and with clean cache entries dropped at any moment; afterwards the databases hold exactly what was visible and the cache agrees with them. While a staged block is finalized, keys the block does not touch are read correctly.

PARTIAL: commit_dirty_cache is proved for every schedule (C77_commit_reads, C77_commit_end). apply_dirty_cache_commit is proved for keys the block does not touch and for the databases; for the block's own keys the property is false in the code: a read can fail (C77_finalize_missing) and can leave the old value in the cache as clean (C77_finalize_stale). Readers only read; concurrent writers are C64. Database errors are left out.

Theorems: `C77_commit_reads`, `C77_commit_end`, `C77_finalize_reads_partial`, `C77_finalize_end_partial`, `C77_finalize_missing`, `C77_finalize_stale`.

### C78 Announcing authored blocks to the peers — partial

Each peer whose announcement stream stays up gets the hash of every authored block exactly once, in every interleaving of the authoring tasks, the stream writers, reconnections and the importer; without lost streams no announcement fails, and one that finds room in all channels ends with the author's state committed and its root stored. The code violates the natural strengthening: one peer whose stream broke stops every announcement behind it and every later commit of the author, and leaves the node with an unfinished best header on which it rejects every block; a peer that does not read has the same effect and blocks reconnections in its shard.

PARTIAL. Proved: exact accounting of announcements for every peer whose stream stays up; no failures without lost streams; an announcement with room goes through; in every history the stored headers stay one chain that ends in the best header (C78_one_chain). The property fails in the code when a stream breaks or a peer does not read: C78_lost_peer_partial, C78_off_chain_partial, C78_one_loss_partial, C78_stays_off_partial and C78_stall_partial prove the faults for all continuations (finding 63). Not modelled: QUIC itself, peers added after start-up, the order of the table within a shard.

Theorems: `C78_announced`, `C78_committed_announced`, `C78_no_failure`, `C78_completes`, `C78_lost_peer_partial`, `C78_off_chain_partial`, `C78_one_loss_partial`, `C78_stays_off_partial`, `C78_stall_partial`, `C78_one_chain`.

### C79 Which validators are connected after they have started — partial

A node that is through both rounds of calls is connected to every other node, each connection is in the tables of both sides or on its way into the second, nodes that start while no call runs into the time limit end up as a full network in every interleaving, and a node that starts when all others listen never gives up. The code violates the natural strengthening that nodes which all run and can reach each other get connected: one failed call in the first round cancels the second, so of nodes started one after the other two are connected exactly if the later is preferred over the earlier or over none of those still to come; otherwise no continuation connects them, and any three validators have such an order.

PARTIAL. Proved for all networks and interleavings: what a finished start gives, agreement of the two tables, calls made once and between running nodes only, full network without time-outs, the exact outcome of sequential starts, and that crossing connections leave a usable stream handle. The property fails in the code when a call of the first round fails: C79_gives_up_partial, C79_split_partial and C79_any_three_partial prove it for all continuations; blocks announced while a second connection is set up pass the peer over (C79_gap_partial). Not modelled: connections that break, unreliable networks, the address table (C67).

Theorems: `C79_ready`, `C79_both_sides`, `C79_sound`, `C79_once`, `C79_late_call`, `C79_no_timeout`, `C79_last`, `C79_gives_up_partial`, `C79_sequential`, `C79_split_partial`, `C79_any_three_partial`, `C79_handle`, `C79_sent`, `C79_gap_partial`.

### C80 A node starts on its own database and catches up with the chain — partial

Starting the node on empty databases writes exactly the genesis state and records its root; whatever a process had committed when it ended is exactly what the next one reads from its databases, pending and staged work being gone; a node can be started again on its databases; and a node that has missed blocks, for instance while it was down, comes back to the chain when it receives the rest.

PARTIAL: the code violates the last two parts. Proved: the first start on empty databases (C80_first_start), that everything committed survives a restart and the first commit restores the root (C80_durable_partial; missing: the root itself is not on disk, C80_root_lost_partial), that a chain delivered in order is followed (C80_follows) and that rejected blocks do no lasting harm (C80_catches_up). Negations: a node never starts a second time on its databases (C80_second_start_partial for any contents, C80_one_life_partial for any history and number of attempts), and a node that has missed one block accepts no other block of the chain until it is given that one, which nothing asks for (C80_stuck_partial).

Theorems: `C80_first_start`, `C80_durable_partial`, `C80_root_lost_partial`, `C80_second_start_partial`, `C80_one_life_partial`, `C80_follows`, `C80_stuck_partial`, `C80_catches_up`.

### C81 Hexadecimal text denotes the octets it spells — partial

Every octet string and array written as text (JSON or display form, with or without 0x) is read back unchanged by every reader; a reader accepts exactly the texts that spell the octets, in either case; ByteArray::from_hex reads the text as a big-endian number and keeps its value; two texts are read as the same octets only if they differ in case and prefix alone; and the two readers of an array accept the same texts.

PARTIAL: the last part fails in the code. Proved for all texts: round trips between all writers and readers (C81_round_trip), exact acceptance (C81_exact), from_hex as a number (C81_number), uniqueness up to case and prefix (C81_unique), the written form (C81_written). C81_readers_partial: from_hex agrees with the JSON reader wherever that accepts, but also accepts every shorter row of digits, down to the empty text, and pads with zeros, where the JSON reader reports an error (finding 67). The hex crate is modelled from its documented behaviour, serde_json (quoting, escapes) is not modelled.

Theorems: `C81_round_trip`, `C81_exact`, `C81_number`, `C81_unique`, `C81_written`, `C81_readers_partial`.

## Axioms per theorem

| theorem | axioms |
|---|---|
| `Fastroll.Codec.C01_int_roundtrip` | propext, Classical.choice, Quot.sound |
| `Fastroll.Codec.C01_int_length` | propext, Classical.choice, Quot.sound |
| `Fastroll.Codec.C01_int_prefix_free` | propext, Classical.choice, Quot.sound |
| `Fastroll.Codec.C01_int_too_large` | propext, Classical.choice, Quot.sound |
| `Fastroll.Codec.C01_int_paper` | propext, Classical.choice, Quot.sound |
| `Fastroll.Codec.C02_noncanonical_accepted` | propext, Quot.sound |
| `Fastroll.Codec.C02_shortest_is_canonical_partial` | propext, Classical.choice, Quot.sound |
| `Fastroll.Codec.C03_fixed_paper` | propext, Classical.choice, Quot.sound |
| `Fastroll.Codec.C03_fixed_roundtrip` | propext, Classical.choice, Quot.sound |
| `Fastroll.Codec.C03_fixed_rejects` | propext, Quot.sound |
| `Fastroll.Codec.C03_fixed_decode_rejects` | propext, Quot.sound |
| `Fastroll.Codec.C03_fixed_canonical` | propext, Classical.choice, Quot.sound |
| `Fastroll.Codec.C04_roundtrip` | propext, Classical.choice, Quot.sound |
| `Fastroll.Codec.C04_prefix_stable` | propext, Quot.sound |
| `Fastroll.Codec.C04_injective` | propext, Classical.choice, Quot.sound |
| `Fastroll.Codec.C04_limit_rejected` | propext, Classical.choice, Quot.sound |
| `Fastroll.Codec.C04_discriminator_rejected` | propext |
| `Fastroll.Codec.C04_decoded_sizes` | propext, Quot.sound |
| `Fastroll.Codec.C04_decoded_ok` | propext, Classical.choice, Quot.sound |
| `Fastroll.Codec.C04_normalizes` | propext, Classical.choice, Quot.sound |
| `Fastroll.Codec.C04_bits_rejected` | propext, Quot.sound |
| `Fastroll.LimVec.C05_bound_invariant` | propext, Quot.sound |
| `Fastroll.LimVec.C05_failure_no_effect` | propext |
| `Fastroll.LimVec.C05_push_iff` | propext, Quot.sound |
| `Fastroll.LimVec.C05_shift_keeps_recent` | propext, Classical.choice, Quot.sound |
| `Fastroll.LimVec.C05_shift_evicts` | propext |
| `Fastroll.LimVec.C05_shift_zero_panics` | propext |
| `Fastroll.LimVec.C05_fixed_checked` | propext |
| `Fastroll.LimVec.C05_fixed_unchecked_wrong_size` | none |
| `Fastroll.Merkle.C06_justification_verifies` | propext, Classical.choice, Quot.sound |
| `Fastroll.Merkle.C06_justification_length` | propext, Quot.sound |
| `Fastroll.Merkle.C06_justification_binding` | propext, Classical.choice, Quot.sound |
| `Fastroll.Merkle.C06_page_justification` | propext, Classical.choice, Quot.sound |
| `Fastroll.Merkle.C06_page_leaves` | propext, Classical.choice, Quot.sound |
| `Fastroll.Merkle.C06_node_paper` | propext, Classical.choice, Quot.sound |
| `Fastroll.Merkle.C06_roots_paper` | propext, Classical.choice, Quot.sound |
| `Fastroll.Merkle.C07_binary_counter` | propext, Classical.choice, Quot.sound |
| `Fastroll.Merkle.C07_count` | propext, Quot.sound |
| `Fastroll.Merkle.C07_recursive_agrees` | propext, Quot.sound |
| `Fastroll.Merkle.C07_eq_confuses_sizes` | propext, Classical.choice, Quot.sound |
| `Fastroll.Merkle.C07_super_peak` | propext, Classical.choice, Quot.sound |
| `Fastroll.Merkle.C07_binds` | propext, Classical.choice, Quot.sound |
| `Fastroll.Shuffle.C08_shuffle_perm` | propext, Quot.sound |
| `Fastroll.Shuffle.C08_shuffle_short` | propext, Quot.sound |
| `Fastroll.Shuffle.C08_shuffle_is_paper` | propext, Quot.sound |
| `Fastroll.Shuffle.C08_shuffle_with_hash_perm` | propext, Quot.sound |
| `Fastroll.Shuffle.C08_randoms` | propext, Classical.choice, Quot.sound |
| `Fastroll.Shuffle.C09_balanced` | propext, Classical.choice, Quot.sound |
| `Fastroll.Shuffle.C09_three_per_core` | propext, Classical.choice, Quot.sound |
| `Fastroll.Shuffle.C09_rotation_step` | propext, Quot.sound |
| `Fastroll.Shuffle.C09_assignment` | propext, Classical.choice, Quot.sound |
| `Fastroll.Pvm.C10_two_reg` | propext, Classical.choice, Quot.sound |
| `Fastroll.Pvm.C10_two_reg_imm` | propext, Classical.choice, Quot.sound |
| `Fastroll.Pvm.C10_three_reg_partial` | propext, Classical.choice, Quot.sound |
| `Fastroll.Pvm.C10_signed_rem_wrong` | propext, Classical.choice, Quot.sound |
| `Fastroll.Pvm.C11_refines_byte_map` | propext, Classical.choice, Quot.sound |
| `Fastroll.Pvm.C11_read_after_write` | propext, Classical.choice, Quot.sound |
| `Fastroll.Pvm.C11_failed_store_no_effect` | propext, Classical.choice, Quot.sound |
| `Fastroll.Pvm.C11_fault_address` | propext, Classical.choice, Quot.sound |
| `Fastroll.Pvm.C11_byte_fault_unaligned` | propext |
| `Fastroll.Pvm.C11_sbrk_partial` | propext, Classical.choice, Quot.sound |
| `Fastroll.Pvm.C11_read_only_preserved_partial` | propext, Classical.choice, Quot.sound |
| `Fastroll.Pvm.C11_sbrk_wraps` | propext, Quot.sound |
| `Fastroll.Pvm.C11_sbrk_truncates` | propext, Classical.choice, Quot.sound |
| `Fastroll.Pvm.C12_terminates` | propext, Classical.choice, Quot.sound |
| `Fastroll.Pvm.C12_charge_exact` | propext, Quot.sound |
| `Fastroll.Pvm.C12_out_of_gas` | propext, Classical.choice, Quot.sound |
| `Fastroll.Pvm.C12_host_calls_terminate` | propext, Classical.choice, Quot.sound |
| `Fastroll.Pvm.C12_gas_used` | propext, Classical.choice, Quot.sound |
| `Fastroll.Pvm.C12_huge_limit` | propext, Classical.choice, Quot.sound |
| `Fastroll.Pvm.C12_sbrk_unpaid` | propext, Quot.sound |
| `Fastroll.Pvm.C13_block_starts_partial` | propext, Classical.choice, Quot.sound |
| `Fastroll.Pvm.C13_targets_sound` | propext, Classical.choice, Quot.sound |
| `Fastroll.Pvm.C13_first_terminator_ignored` | propext, Quot.sound |
| `Fastroll.Pvm.C13_step` | propext, Classical.choice, Quot.sound |
| `Fastroll.Pvm.C13_no_overlap` | propext, Classical.choice, Quot.sound |
| `Fastroll.Pvm.C13_no_instruction` | propext, Classical.choice, Quot.sound |
| `Fastroll.Pvm.C13_jump` | propext, Classical.choice, Quot.sound |
| `Fastroll.Pvm.C13_branch` | propext, Quot.sound |
| `Fastroll.Pvm.C13_branch_imm` | propext, Quot.sound |
| `Fastroll.Pvm.C13_dynamic_jump` | propext, Classical.choice, Quot.sound |
| `Fastroll.Pvm.C14_regions` | propext, Classical.choice, Quot.sound |
| `Fastroll.Pvm.C14_always_admitted` | propext, Quot.sound |
| `Fastroll.Pvm.C14_heap_invariant` | propext, Classical.choice, Quot.sound |
| `Fastroll.Pvm.C14_registers` | propext, Quot.sound |
| `Fastroll.Pvm.C14_read_only_escape` | propext, Classical.choice, Quot.sound |
| `Fastroll.Acc.C15_max_prefix` | propext, Quot.sound |
| `Fastroll.Acc.C15_rounds_end` | propext, Classical.choice, Quot.sound |
| `Fastroll.Acc.C15_maximal` | propext, Classical.choice, Quot.sound |
| `Fastroll.Acc.C15_round` | propext, Classical.choice, Quot.sound |
| `Fastroll.Acc.C15_no_overflow` | propext, Classical.choice, Quot.sound |
| `Fastroll.Acc.C15_always_overflow` | propext, Quot.sound |
| `Fastroll.Acc.C15_parallel` | propext, Classical.choice, Quot.sound |
| `Fastroll.Acc.C15_parallel_refused` | propext, Classical.choice, Quot.sound |
| `Fastroll.Acc.C15_limit` | propext, Classical.choice, Quot.sound |
| `Fastroll.Acc.C15_limit_wraps` | none |
| `Fastroll.Acc.C16_chain_ordered` | propext, Classical.choice, Quot.sound |
| `Fastroll.Acc.C16_chain_no_repeat` | propext, Classical.choice, Quot.sound |
| `Fastroll.Acc.C16_chain_only_offered` | propext, Classical.choice, Quot.sound |
| `Fastroll.Acc.C16_least` | propext, Classical.choice, Quot.sound |
| `Fastroll.Acc.C16_step` | propext, Quot.sound |
| `Fastroll.Svc.C17_calls_follow_life_cycle` | propext, Classical.choice, Quot.sound |
| `Fastroll.Svc.C17_slots_ordered` | propext, Classical.choice, Quot.sound |
| `Fastroll.Svc.C17_preimage_lost_partial` | propext, Quot.sound |
| `Fastroll.Svc.C17_provide_exact` | propext, Quot.sound |
| `Fastroll.Svc.C17_provide_enters` | propext, Quot.sound |
| `Fastroll.Svc.C17_integrate_enters` | propext, Quot.sound |
| `Fastroll.Svc.C17_preimages_hashed` | propext, Quot.sound |
| `Fastroll.Svc.C18_answer_is_availability` | propext, Quot.sound |
| `Fastroll.Svc.C18_calls_keep_answers_partial` | propext, Classical.choice, Quot.sound |
| `Fastroll.Svc.C18_entering_keeps_answers` | propext, Classical.choice, Quot.sound |
| `Fastroll.Svc.C18_answer_lost_partial` | propext, Quot.sound |
| `Fastroll.Svc.C19_footprint_exact` | propext, Classical.choice, Quot.sound |
| `Fastroll.Svc.C19_threshold_exact` | propext, Classical.choice, Quot.sound |
| `Fastroll.Svc.C20_tokens_conserved` | propext, Classical.choice, Quot.sound |
| `Fastroll.Svc.C20_solvent` | propext, Classical.choice, Quot.sound |
| `Fastroll.Svc.C20_round_conserved_partial` | propext, Classical.choice, Quot.sound |
| `Fastroll.Svc.C21_eject_moves_balance_partial` | propext, Classical.choice, Quot.sound |
| `Fastroll.Svc.C21_eject_after_running_mints_partial` | propext, Quot.sound |
| `Fastroll.Svc.C21_registrar_mints_partial` | propext, Quot.sound |
| `Fastroll.Svc.C21_eject_next_round_mints_partial` | propext, Quot.sound |
| `Fastroll.Svc.C22_next_id_free` | propext, Classical.choice, Quot.sound |
| `Fastroll.Svc.C22_created_id_fresh` | propext, Classical.choice, Quot.sound |
| `Fastroll.Svc.C22_search_first_free` | propext, Classical.choice, Quot.sound |
| `Fastroll.Svc.C23_checkpoint_saved` | propext, Quot.sound |
| `Fastroll.Svc.C23_effect` | propext, Quot.sound |
| `Fastroll.Svc.C24_assigners_resolved` | propext, Classical.choice, Quot.sound |
| `Fastroll.Svc.C24_other_calls` | propext, Quot.sound |
| `Fastroll.Svc.C24_not_holder` | propext, Quot.sound |
| `Fastroll.Svc.C24_not_designate` | propext, Quot.sound |
| `Fastroll.Svc.C24_round_authority` | propext, Quot.sound |
| `Fastroll.Svc.C24_round_settled` | propext, Quot.sound |
| `Fastroll.Svc.C24_roles_resolved` | propext, Classical.choice, Quot.sound |
| `Fastroll.Svc.C24_assigner_choice_lost_partial` | propext, Quot.sound |
| `Fastroll.Svc.C24_self_bless_creates_partial` | propext, Quot.sound |
| `Fastroll.Svc.C24_two_self_bless_block_partial` | propext, Quot.sound |
| `Fastroll.Safrole.C25_keeps_lowest` | propext, Classical.choice, Quot.sound |
| `Fastroll.Safrole.C25_order_independent` | propext, Classical.choice, Quot.sound |
| `Fastroll.Safrole.C25_heap_independent` | propext, Classical.choice, Quot.sound |
| `Fastroll.Safrole.C25_decode_encode` | propext, Classical.choice, Quot.sound |
| `Fastroll.Safrole.C25_accepted_all_kept` | propext, Classical.choice, Quot.sound |
| `Fastroll.Safrole.C25_accept_iff` | propext, Classical.choice, Quot.sound |
| `Fastroll.Safrole.C25_useless_exact` | propext, Classical.choice, Quot.sound |
| `Fastroll.Safrole.C25_useless_needs_limit` | propext, Quot.sound |
| `Fastroll.Safrole.C25_epoch` | propext, Classical.choice, Quot.sound |
| `Fastroll.Safrole.C25_no_duplicates` | propext, Classical.choice, Quot.sound |
| `Fastroll.Safrole.C25_same_id_partial` | propext, Quot.sound |
| `Fastroll.Safrole.C25_distinct` | propext, Classical.choice, Quot.sound |
| `Fastroll.Safrole.C26_outside_in` | propext, Classical.choice, Quot.sound |
| `Fastroll.Safrole.C26_never_stuck` | propext, Classical.choice, Quot.sound |
| `Fastroll.Safrole.C26_every_slot_sealed` | propext, Classical.choice, Quot.sound |
| `Fastroll.Safrole.C26_mode` | propext, Classical.choice, Quot.sound |
| `Fastroll.Safrole.C26_winners_seal_next` | propext, Classical.choice, Quot.sound |
| `Fastroll.Judge.C27_accept_iff` | propext, Classical.choice, Quot.sound |
| `Fastroll.Judge.C27_one_verdict` | propext, Classical.choice, Quot.sound |
| `Fastroll.Judge.C27_sets` | propext, Classical.choice, Quot.sound |
| `Fastroll.Judge.C27_final` | propext, Classical.choice, Quot.sound |
| `Fastroll.Judge.C27_sorted` | propext, Classical.choice, Quot.sound |
| `Fastroll.Judge.C27_offenders` | propext, Classical.choice, Quot.sound |
| `Fastroll.Judge.C27_offender_once` | propext, Classical.choice, Quot.sound |
| `Fastroll.Judge.C27_offender_twice_partial` | propext, Classical.choice, Quot.sound |
| `Fastroll.Judge.C27_evidence` | propext, Classical.choice, Quot.sound |
| `Fastroll.Judge.C27_consequences` | propext, Classical.choice, Quot.sound |
| `Fastroll.Judge.C27_accountability` | propext, Classical.choice, Quot.sound |
| `Fastroll.Judge.C27_future_epoch_partial` | propext |
| `Fastroll.Judge.C27_late_offender_partial` | propext, Classical.choice, Quot.sound |
| `Fastroll.Reports.C28_available` | propext, Classical.choice, Quot.sound |
| `Fastroll.Reports.C28_released` | propext, Classical.choice, Quot.sound |
| `Fastroll.Reports.C28_once` | propext, Quot.sound |
| `Fastroll.Reports.C28_quorum` | propext, Classical.choice, Quot.sound |
| `Fastroll.Reports.C28_accept_iff` | propext, Quot.sound |
| `Fastroll.Reports.C28_total` | propext, Classical.choice, Quot.sound |
| `Fastroll.Reports.C28_no_panic` | propext, Classical.choice, Quot.sound |
| `Fastroll.Reports.C29_one_per_core` | propext, Quot.sound |
| `Fastroll.Reports.C29_pending` | propext, Classical.choice, Quot.sound |
| `Fastroll.Reports.C29_never_over` | propext, Classical.choice, Quot.sound |
| `Fastroll.Reports.C29_leaves` | propext, Classical.choice, Quot.sound |
| `Fastroll.Reports.C29_judged` | propext, Classical.choice, Quot.sound |
| `Fastroll.Reports.C29_timeout` | propext, Classical.choice, Quot.sound |
| `Fastroll.StateCache.C30_answers_partial` | propext, Classical.choice, Quot.sound |
| `Fastroll.StateCache.C30_rollback_partial` | propext, Classical.choice, Quot.sound |
| `Fastroll.StateCache.C30_commit_partial` | propext, Classical.choice, Quot.sound |
| `Fastroll.StateCache.C30_clean_read_sees_uncommitted` | propext |
| `Fastroll.StateCache.C30_rollback_leaves_phantom` | propext |
| `Fastroll.StateCache.C30_readded_key_panics` | propext, Classical.choice, Quot.sound |
| `Fastroll.StateCache.C30_evicted_write_is_lost` | propext |
| `Fastroll.CachedDb.C31_coherent` | propext, Quot.sound |
| `Fastroll.CachedDb.C31_read_last_write` | propext, Quot.sound |
| `Fastroll.CachedDb.C31_exclusive_schedules` | propext, Classical.choice, Quot.sound |
| `Fastroll.CachedDb.C31_overtaken_read_goes_stale` | propext |
| `Fastroll.CachedDb.C31_crossed_writes_go_stale` | propext |
| `Fastroll.Trie.C32_history_partial` | propext, Classical.choice, Quot.sound |
| `Fastroll.Trie.C32_same_map_same_trie` | propext, Classical.choice, Quot.sound |
| `Fastroll.Trie.C32_batch_order_partial` | propext, Classical.choice, Quot.sound |
| `Fastroll.Trie.C32_root_binds_map` | propext, Classical.choice, Quot.sound |
| `Fastroll.Trie.C32_reopened_root` | propext, Classical.choice, Quot.sound |
| `Fastroll.Trie.C32_only_key_cannot_be_removed` | propext, Classical.choice, Quot.sound |
| `Fastroll.Trie.C32_order_matters_for_the_only_key` | propext |
| `Fastroll.Trie.C32_adding_a_present_key_panics` | propext, Classical.choice, Quot.sound |
| `Fastroll.Trie.C32_failed_commit_leaks` | propext |
| `Fastroll.Trie.C32_torn_commit_loses_long_values` | propext, Classical.choice, Quot.sound |
| `Fastroll.Trie.C33_nodes_round_trip` | propext, Classical.choice, Quot.sound |
| `Fastroll.Trie.C33_encoding_is_gray_paper` | propext, Quot.sound |
| `Fastroll.Trie.C33_encodings_never_coincide` | propext, Classical.choice, Quot.sound |
| `Fastroll.Trie.C33_branch_forgets_one_bit` | propext, Classical.choice, Quot.sound |
| `Fastroll.Trie.C33_decoded_nodes_are_well_formed` | propext, Classical.choice, Quot.sound |
| `Fastroll.Trie.C33_padding_is_not_checked` | propext |
| `Fastroll.Trie.C33_paths_round_trip` | propext, Quot.sound |
| `Fastroll.StateKeys.C34_components_and_metadata_distinct` | propext, Quot.sound |
| `Fastroll.StateKeys.C34_service_is_recoverable` | propext, Quot.sound |
| `Fastroll.StateKeys.C34_entries_never_components_partial` | propext, Quot.sound |
| `Fastroll.StateKeys.C34_large_services_are_apart` | propext, Quot.sound |
| `Fastroll.StateKeys.C34_same_service_partial` | propext |
| `Fastroll.StateKeys.C34_hashed_bytes_determine_item` | propext, Quot.sound |
| `Fastroll.StateKeys.C34_largest_lookups_alias` | propext |
| `Fastroll.Ancestors.C35_latest_kept` | propext, Classical.choice, Quot.sound |
| `Fastroll.Ancestors.C35_contains_iff` | propext, Classical.choice, Quot.sound |
| `Fastroll.Ancestors.C35_refines_record` | propext, Classical.choice, Quot.sound |
| `Fastroll.Ancestors.C35_removal_by_hash_disagrees` | propext, Classical.choice, Quot.sound |
| `Fastroll.Svc.C36_calls_refine` | propext, Classical.choice, Quot.sound |
| `Fastroll.Svc.C36_answers_refine` | propext, Quot.sound |
| `Fastroll.Svc.C36_programs_refine` | propext, Classical.choice, Quot.sound |
| `Fastroll.Svc.C36_commit_is_view` | propext, Quot.sound |
| `Fastroll.Svc.C36_first_round_end_to_end` | propext, Classical.choice, Quot.sound |
| `Fastroll.Svc.C36_recreate_ejected_partial` | propext, Quot.sound |
| `Fastroll.Svc.C36_eject_after_running_partial` | propext, Quot.sound |
| `Fastroll.Reports.C37_step` | propext, Quot.sound |
| `Fastroll.Reports.C37_bounded` | propext, Quot.sound |
| `Fastroll.Reports.C37_idle` | propext, Quot.sound |
| `Fastroll.Reports.C37_sublist` | propext, Quot.sound |
| `Fastroll.Reports.C37_newest` | propext, Quot.sound |
| `Fastroll.Reports.C37_budget` | propext, Classical.choice, Quot.sound |
| `Fastroll.Reports.C38_history` | propext, Classical.choice, Quot.sound |
| `Fastroll.Reports.C38_step` | propext, Quot.sound |
| `Fastroll.Reports.C38_headers` | propext, Quot.sound |
| `Fastroll.Safrole.C39_rotation` | propext, Quot.sound |
| `Fastroll.Safrole.C39_punished_excluded` | propext, Quot.sound |
| `Fastroll.Safrole.C39_pending_unpunished` | propext, Quot.sound |
| `Fastroll.Safrole.C39_ring_root` | propext, Quot.sound |
| `Fastroll.Safrole.C39_epoch_marker` | propext, Classical.choice, Quot.sound |
| `Fastroll.Safrole.C39_slots_increase` | propext, Quot.sound |
| `Fastroll.Ring.C40_epoch_ring_root` | propext, Quot.sound |
| `Fastroll.Ring.C40_ticket_verifier_partial` | propext, Classical.choice, Quot.sound |
| `Fastroll.Ring.C40_block_requests` | propext, Quot.sound |
| `Fastroll.Ring.C40_tickets_epoch_start_designation_wrong` | propext, Quot.sound |
| `Fastroll.Ring.C40_rejected_block_poisons_ring` | propext, Quot.sound |
| `Fastroll.Ring.C40_rejected_block_rotates_ring` | propext, Quot.sound |
| `Fastroll.Ring.C40_punished_zeroed` | propext, Quot.sound |
| `Fastroll.Svc.C41_window_written` | propext, Classical.choice, Quot.sound |
| `Fastroll.Svc.C41_calls_serve_datum` | propext, Quot.sound |
| `Fastroll.Svc.C41_info_layout` | propext, Classical.choice, Quot.sound |
| `Fastroll.Pvm.C42_loads_partial` | propext, Quot.sound |
| `Fastroll.Pvm.C42_missing_operand_panics` | propext, Quot.sound |
| `Fastroll.Pvm.C42_long_instruction_refused` | propext, Quot.sound |
| `Fastroll.Pvm.C42_huge_table_panics` | propext, Quot.sound |
| `Fastroll.Pvm.C42_panic_causes` | propext, Classical.choice, Quot.sound |
| `Fastroll.Acc.C43_queue_window` | propext, Classical.choice, Quot.sound |
| `Fastroll.Acc.C43_oldest_first` | propext, Quot.sound |
| `Fastroll.Acc.C43_history_window` | propext, Quot.sound |
| `Fastroll.Svc.C44_merge_isolated` | propext, Quot.sound |
| `Fastroll.Svc.C44_round_reports` | propext, Quot.sound |
| `Fastroll.Svc.C44_conflict_rejected` | propext, Quot.sound |
| `Fastroll.Reports.C45_once` | propext, Quot.sound |
| `Fastroll.Reports.C45_package` | propext, Classical.choice, Quot.sound |
| `Fastroll.Reports.C46_accept_iff` | propext, Classical.choice, Quot.sound |
| `Fastroll.Reports.C46_placed` | propext, Classical.choice, Quot.sound |
| `Fastroll.Reports.C46_reporters` | propext, Classical.choice, Quot.sound |
| `Fastroll.Wire.C47_block` | propext, Classical.choice, Quot.sound |
| `Fastroll.Wire.C47_report` | propext, Classical.choice, Quot.sound |
| `Fastroll.Wire.C47_package_partial` | propext, Classical.choice, Quot.sound |
| `Fastroll.Wire.C47_import_index_aliases` | propext, Classical.choice, Quot.sound |
| `Fastroll.Wire.C47_header_binds` | propext, Classical.choice, Quot.sound |
| `Fastroll.Wire.C47_block_binds` | propext, Classical.choice, Quot.sound |
| `Fastroll.Wire.C47_set_decoding_not_canonical` | propext, Classical.choice, Quot.sound |
| `Fastroll.Wire.C48_vec_panics_iff` | propext, Classical.choice, Quot.sound |
| `Fastroll.Wire.C48_block_decoder_panics` | propext, Classical.choice, Quot.sound |
| `Fastroll.Wire.C48_header_decoder_panics` | propext, Classical.choice, Quot.sound |
| `Fastroll.Wire.C48_service_code_panics` | propext, Classical.choice, Quot.sound |
| `Fastroll.Wire.C48_no_panic_partial` | propext, Quot.sound |
| `Fastroll.Wire.C48_bounded_types_no_panic` | propext, Quot.sound |
| `Fastroll.Wire.C49_operand_iff` | propext, Classical.choice, Quot.sound |
| `Fastroll.Wire.C49_service_code_partial` | propext, Classical.choice, Quot.sound |
| `Fastroll.Wire.C49_service_code_shifted` | propext, Classical.choice, Quot.sound |
| `Fastroll.Pvm.C50_step_partial` | propext, Classical.choice, Quot.sound |
| `Fastroll.Pvm.C50_paper_deterministic` | propext, Classical.choice, Quot.sound |
| `Fastroll.Pvm.C50_run_partial` | propext, Classical.choice, Quot.sound |
| `Fastroll.Pvm.C50_host_number_truncated` | propext, Classical.choice, Quot.sound |
| `Fastroll.Pvm.C50_past_end_error` | propext, Classical.choice, Quot.sound |
| `Fastroll.Pvm.C50_store_fault_resets_pc` | propext, Classical.choice, Quot.sound |
| `Fastroll.Pvm.C50_second_instruction_rejected` | propext, Quot.sound |
| `Fastroll.Refine.C51_calls_partial` | propext, Classical.choice, Quot.sound |
| `Fastroll.Refine.C51_invoke_partial` | propext, Classical.choice, Quot.sound |
| `Fastroll.Refine.C51_inner_run_partial` | propext, Classical.choice, Quot.sound |
| `Fastroll.Refine.C51_id_not_least` | propext, Quot.sound |
| `Fastroll.Refine.C51_no_inner_memory` | propext, Quot.sound |
| `Fastroll.Refine.C51_pages_refused` | propext, Classical.choice, Quot.sound |
| `Fastroll.Refine.C51_pages_partial` | propext, Classical.choice, Quot.sound |
| `Fastroll.Refine.C51_peek_poke_refused` | propext, Quot.sound |
| `Fastroll.Refine.C51_inner_access_aborts` | propext, Classical.choice, Quot.sound |
| `Fastroll.Refine.C51_inner_sbrk_crashes` | propext, Quot.sound |
| `Fastroll.Refine.C51_pages_crash` | propext, Quot.sound |
| `Fastroll.Refine.C51_pages_wrap_granted` | propext, Quot.sound |
| `Fastroll.Refine.C51_host_number_lost` | propext, Quot.sound |
| `Fastroll.Refine.C51_empty_range_panics` | propext, Quot.sound |
| `Fastroll.Refine.C51_gas_limit_aborts` | propext, Quot.sound |
| `Fastroll.Refine.C51_out_of_gas_wraps` | propext, Classical.choice, Quot.sound |
| `Fastroll.Refine.C51_historical` | propext, Quot.sound |
| `Fastroll.Refine.C51_gas` | propext, Quot.sound |
| `Fastroll.Refine.C51_pages_proper_partial` | propext, Classical.choice, Quot.sound |
| `Fastroll.Refine.C51_pages_closed` | propext, Classical.choice, Quot.sound |
| `Fastroll.Refine.C51_host_number_told` | propext, Quot.sound |
| `Fastroll.Refine.C52_isolated` | propext, Quot.sound |
| `Fastroll.Refine.C52_ids_fresh` | propext, Quot.sound |
| `Fastroll.Refine.C52_exports` | propext, Quot.sound |
| `Fastroll.Stats.C53_current_epoch` | propext, Classical.choice, Quot.sound |
| `Fastroll.Stats.C53_previous_epoch` | propext, Classical.choice, Quot.sound |
| `Fastroll.Stats.C53_cores_partial` | propext, Classical.choice, Quot.sound |
| `Fastroll.Stats.C53_da_load_iff` | propext, Classical.choice, Quot.sound |
| `Fastroll.Stats.C53_services` | propext, Classical.choice, Quot.sound |
| `Fastroll.Stats.C53_total` | propext, Classical.choice, Quot.sound |
| `Fastroll.Stats.C53_da_load_wrong` | none |
| `Fastroll.Stats.C53_core_exports_wrap` | propext |
| `Fastroll.Da.C54_encode` | propext, Classical.choice, Quot.sound |
| `Fastroll.Da.C54_recover` | propext, Classical.choice, Quot.sound |
| `Fastroll.Da.C54_insufficient` | propext, Quot.sound |
| `Fastroll.Da.C54_short_chunk` | propext, Quot.sound |
| `Fastroll.Da.C54_chunks_unchecked` | propext, Quot.sound |
| `Fastroll.Da.C54_zero_pad` | propext, Quot.sound |
| `Fastroll.Da.C54_zero_pad_empty` | propext, Quot.sound |
| `Fastroll.Da.C55_paged_proofs` | propext, Classical.choice, Quot.sound |
| `Fastroll.Da.C55_segment_binding` | propext, Classical.choice, Quot.sound |
| `Fastroll.Da.C55_erasure_root` | propext, Classical.choice, Quot.sound |
| `Fastroll.Da.C55_share_binding` | propext, Classical.choice, Quot.sound |
| `Fastroll.Da.C55_specs` | propext, Classical.choice, Quot.sound |
| `Fastroll.Da.C55_count_wraps` | propext, Quot.sound |
| `Fastroll.Da.C56_roundtrip` | propext, Classical.choice, Quot.sound |
| `Fastroll.Da.C56_layout_partial` | propext, Classical.choice, Quot.sound |
| `Fastroll.Da.C56_length` | propext, Classical.choice, Quot.sound |
| `Fastroll.Da.C56_shape_unchecked` | propext, Quot.sound |
| `Fastroll.Wr.C57_counts` | propext |
| `Fastroll.Wr.C57_size` | propext, Quot.sound |
| `Fastroll.Wr.C57_gas_partial` | propext |
| `Fastroll.Wr.C57_gas_modulo` | propext |
| `Fastroll.Wr.C57_gas_wraps` | propext |
| `Fastroll.Wr.C57_countable` | propext, Quot.sound |
| `Fastroll.Wr.C58_frame` | propext, Quot.sound |
| `Fastroll.Wr.C58_size` | propext, Quot.sound |
| `Fastroll.Wr.C58_digests_partial` | propext, Quot.sound |
| `Fastroll.Wr.C58_exports_partial` | propext, Quot.sound |
| `Fastroll.Wr.C58_oversize_spreads` | propext, Quot.sound |
| `Fastroll.Wr.C58_oversize_differs` | none |
| `Fastroll.Wr.C58_bad_exports_counted` | none |
| `Fastroll.Wr.C58_zero_segments_dropped` | none |
| `Fastroll.Wr.C58_lookup_multiplicity` | propext, Quot.sound |
| `Fastroll.Wr.C58_made` | propext, Quot.sound |
| `Fastroll.Wr.C58_counts_wrap` | none |
| `Fastroll.Wr.C58_never` | propext, Quot.sound |
| `Fastroll.Fetch.C59_fetch_partial` | propext, Classical.choice, Quot.sound |
| `Fastroll.Fetch.C59_summaries_length` | propext, Classical.choice, Quot.sound |
| `Fastroll.Fetch.C59_summaries_wrong` | propext, Classical.choice, Quot.sound |
| `Fastroll.Fetch.C59_own_item_unchecked` | propext, Quot.sound |
| `Fastroll.Comp.C60_authorizers` | propext, Classical.choice, Quot.sound |
| `Fastroll.Comp.C60_history` | propext, Classical.choice, Quot.sound |
| `Fastroll.Comp.C60_small` | propext, Classical.choice, Quot.sound |
| `Fastroll.Comp.C60_safrole` | propext, Classical.choice, Quot.sound |
| `Fastroll.Comp.C60_heap_order` | propext, Quot.sound |
| `Fastroll.Comp.C60_reports` | propext, Classical.choice, Quot.sound |
| `Fastroll.Comp.C60_privileges` | propext, Classical.choice, Quot.sound |
| `Fastroll.Comp.C60_statistics_partial` | propext, Classical.choice, Quot.sound |
| `Fastroll.Comp.C60_accounts` | propext, Classical.choice, Quot.sound |
| `Fastroll.Comp.C60_reload` | propext, Classical.choice, Quot.sound |
| `Fastroll.Comp.C60_injective` | propext, Classical.choice, Quot.sound |
| `Fastroll.Comp.C60_statistics_differ` | propext, Classical.choice, Quot.sound |
| `Fastroll.Comp.C60_accumulator_cut` | propext, Classical.choice, Quot.sound |
| `Fastroll.Comp.C60_lookups_panic` | propext, Classical.choice, Quot.sound |
| `Fastroll.Comp.C60_trailing` | none |
| `Fastroll.Entry.C61_what` | none |
| `Fastroll.Entry.C61_table` | propext, Quot.sound |
| `Fastroll.Entry.C61_unknown` | propext, Quot.sound |
| `Fastroll.Entry.C61_standard` | propext, Classical.choice, Quot.sound |
| `Fastroll.Entry.C61_unambiguous` | propext, Classical.choice, Quot.sound |
| `Fastroll.Entry.C61_cache` | propext, Quot.sound |
| `Fastroll.Entry.C61_invoke_partial` | propext, Classical.choice, Quot.sound |
| `Fastroll.Entry.C61_malformed` | propext, Classical.choice, Quot.sound |
| `Fastroll.Entry.C61_long_args` | propext, Classical.choice, Quot.sound |
| `Fastroll.Entry.C61_halt_high` | propext, Classical.choice, Quot.sound |
| `Fastroll.Entry.C61_crash` | propext, Quot.sound |
| `Fastroll.Entry.C61_gas_call` | propext, Quot.sound |
| `Fastroll.Entry.C61_fetch_call_partial` | propext, Classical.choice, Quot.sound |
| `Fastroll.Entry.C61_refine_bad` | propext, Quot.sound |
| `Fastroll.Entry.C61_refine_big_partial` | propext, Classical.choice, Quot.sound |
| `Fastroll.Entry.C61_refine_args` | propext, Classical.choice, Quot.sound |
| `Fastroll.Entry.C61_refine_partial` | propext, Classical.choice, Quot.sound |
| `Fastroll.Entry.C61_authorize_bad` | propext, Quot.sound |
| `Fastroll.Entry.C61_authorize_partial` | propext, Classical.choice, Quot.sound |
| `Fastroll.Entry.C61_undecodable` | propext, Classical.choice, Quot.sound |
| `Fastroll.Chain.C62_complete` | propext, Classical.choice, Quot.sound |
| `Fastroll.Chain.C62_sound_partial` | propext, Classical.choice, Quot.sound |
| `Fastroll.Chain.C62_early` | propext, Classical.choice, Quot.sound |
| `Fastroll.Chain.C62_history_partial` | propext, Classical.choice, Quot.sound |
| `Fastroll.Chain.C62_slots` | propext, Classical.choice, Quot.sound |
| `Fastroll.Chain.C62_commits` | propext, Classical.choice, Quot.sound |
| `Fastroll.Chain.C62_agree_partial` | propext, Classical.choice, Quot.sound |
| `Fastroll.Chain.C62_zero_parent_unchecked` | propext, Classical.choice, Quot.sound |
| `Fastroll.Chain.C62_zero_parent_breaks` | propext, Classical.choice, Quot.sound |
| `Fastroll.Chain.C62_authored` | propext, Classical.choice, Quot.sound |
| `Fastroll.Chain.C62_author_ancestors` | propext, Classical.choice, Quot.sound |
| `Fastroll.Chain.C62_author_stuck` | propext, Classical.choice, Quot.sound |
| `Fastroll.Fork.C63_session_partial` | propext, Classical.choice, Quot.sound |
| `Fastroll.Fork.C63_siblings` | propext, Classical.choice, Quot.sound |
| `Fastroll.Fork.C63_invalid_child` | propext, Classical.choice, Quot.sound |
| `Fastroll.Fork.C63_unreported_key` | propext, Quot.sound |
| `Fastroll.Fork.C63_unknown_hash` | propext |
| `Fastroll.Fork.C63_second_start` | propext, Classical.choice, Quot.sound |
| `Fastroll.Conc.C64_any_schedule` | propext, Classical.choice, Quot.sound |
| `Fastroll.Conc.C64_terminates` | propext, Quot.sound |
| `Fastroll.Conc.C64_first_phase_partial` | propext, Classical.choice, Quot.sound |
| `Fastroll.Conc.C64_epoch_sets_partial` | propext, Classical.choice, Quot.sound |
| `Fastroll.Conc.C64_entropy_rotation_partial` | propext, Classical.choice, Quot.sound |
| `Fastroll.Conc.C64_entropy_ready` | propext, Classical.choice, Quot.sound |
| `Fastroll.Conc.C64_middle_phase` | propext, Classical.choice, Quot.sound |
| `Fastroll.Conc.C64_last_phase` | propext, Classical.choice, Quot.sound |
| `Fastroll.Conc.C64_cold_cache_loses` | propext |
| `Fastroll.Conc.C64_raw_cache_loses` | propext, Quot.sound |
| `Fastroll.Conc.C64_eviction_fails` | propext |
| `Fastroll.Host.C65_calls_partial` | propext, Classical.choice, Quot.sound |
| `Fastroll.Host.C65_answer_unique` | propext, Classical.choice, Quot.sound |
| `Fastroll.Host.C65_sandbox_partial` | propext, Classical.choice, Quot.sound |
| `Fastroll.Host.C65_sequences_partial` | propext, Classical.choice, Quot.sound |
| `Fastroll.Host.C65_no_gas` | propext, Quot.sound |
| `Fastroll.Host.C65_far_empty_range_partial` | propext, Quot.sound |
| `Fastroll.Host.C65_long_solicit_full` | propext, Classical.choice, Quot.sound |
| `Fastroll.Host.C65_long_solicit_partial` | propext, Classical.choice, Quot.sound |
| `Fastroll.Host.C65_expiry_wraps_partial` | propext, Classical.choice, Quot.sound |
| `Fastroll.Net.C66_roundtrip` | propext, Classical.choice, Quot.sound |
| `Fastroll.Net.C66_layout_partial` | propext, Classical.choice, Quot.sound |
| `Fastroll.Net.C66_stream` | propext, Classical.choice, Quot.sound |
| `Fastroll.Net.C66_truncated` | propext, Classical.choice, Quot.sound |
| `Fastroll.Net.C66_junk_accepted` | propext, Classical.choice, Quot.sound |
| `Fastroll.Net.C66_pieces` | propext, Quot.sound |
| `Fastroll.Net.C66_session_partial` | propext, Classical.choice, Quot.sound |
| `Fastroll.Net.C66_isolated` | propext, Quot.sound |
| `Fastroll.Net.C66_panic` | propext, Classical.choice, Quot.sound |
| `Fastroll.Net.C67_kinds` | propext, Quot.sound |
| `Fastroll.Net.C67_announcements_partial` | propext, Classical.choice, Quot.sound |
| `Fastroll.Net.C67_coalesced` | propext, Classical.choice, Quot.sound |
| `Fastroll.Net.C67_cut` | propext, Classical.choice, Quot.sound |
| `Fastroll.Net.C67_epoch_announcement_long` | propext, Quot.sound |
| `Fastroll.Net.C67_answer_partial` | propext, Classical.choice, Quot.sound |
| `Fastroll.Net.C67_request_cut` | propext, Classical.choice, Quot.sound |
| `Fastroll.Net.C67_panic_stops` | propext, Quot.sound |
| `Fastroll.Net.C67_delivery_partial` | propext, Classical.choice, Quot.sound |
| `Fastroll.Net.C67_large_lost` | propext, Classical.choice, Quot.sound |
| `Fastroll.Net.C67_propagation_partial` | propext, Classical.choice, Quot.sound |
| `Fastroll.Net.C67_served` | propext, Quot.sound |
| `Fastroll.Net.C67_not_served` | propext, Quot.sound |
| `Fastroll.Net.C67_initiator` | propext, Quot.sound |
| `Fastroll.Net.C67_later` | propext, Quot.sound |
| `Fastroll.Net.C67_peers` | propext, Classical.choice, Quot.sound |
| `Fastroll.Duty.C68_clock` | propext, Classical.choice, Quot.sound |
| `Fastroll.Duty.C68_clock_wraps` | none |
| `Fastroll.Duty.C68_first_tick_partial` | propext, Classical.choice, Quot.sound |
| `Fastroll.Duty.C68_ticks` | propext, Classical.choice, Quot.sound |
| `Fastroll.Duty.C68_ticks_order` | propext, Quot.sound |
| `Fastroll.Duty.C68_late` | propext, Classical.choice, Quot.sound |
| `Fastroll.Duty.C68_prediction` | propext, Quot.sound |
| `Fastroll.Duty.C68_decided` | propext, Classical.choice, Quot.sound |
| `Fastroll.Duty.C68_one_author` | propext |
| `Fastroll.Duty.C68_whose_new` | propext, Classical.choice, Quot.sound |
| `Fastroll.Duty.C68_whose` | propext, Classical.choice, Quot.sound |
| `Fastroll.Duty.C68_ticket_mode` | propext, Quot.sound |
| `Fastroll.Duty.C68_contest_lost` | propext, Classical.choice, Quot.sound |
| `Fastroll.Duty.C68_accepted_iff` | propext, Classical.choice, Quot.sound |
| `Fastroll.Duty.C68_stale_index` | propext, Quot.sound |
| `Fastroll.Duty.C68_slow` | propext, Quot.sound |
| `Fastroll.Duty.C68_alone` | propext, Classical.choice, Quot.sound |
| `Fastroll.Duty.C68_accepted_partial` | propext, Classical.choice, Quot.sound |
| `Fastroll.Duty.C68_interrupted` | propext, Classical.choice, Quot.sound |
| `Fastroll.Duty.C68_diverges` | propext, Quot.sound |
| `Fastroll.Duty.C68_no_rival` | propext, Quot.sound |
| `Fastroll.Duty.C68_ticket_tasks` | propext, Quot.sound |
| `Fastroll.Duty.C68_unready` | propext, Quot.sound |
| `Fastroll.Stf.C69_provenance` | propext, Classical.choice, Quot.sound |
| `Fastroll.Stf.C69_dependencies_first` | propext, Classical.choice, Quot.sound |
| `Fastroll.Stf.C69_once` | propext, Classical.choice, Quot.sound |
| `Fastroll.Stf.C69_gone` | propext, Classical.choice, Quot.sound |
| `Fastroll.Stf.C69_punished` | propext, Classical.choice, Quot.sound |
| `Fastroll.Stf.C69_no_guarantee` | propext, Classical.choice, Quot.sound |
| `Fastroll.Stf.C69_jury` | propext, Classical.choice, Quot.sound |
| `Fastroll.Stf.C69_new_work` | propext, Classical.choice, Quot.sound |
| `Fastroll.Stf.C69_belt` | propext, Classical.choice, Quot.sound |
| `Fastroll.Stf.C69_depends_header` | propext, Classical.choice, Quot.sound |
| `Fastroll.Stf.C69_depends_body` | propext, Classical.choice, Quot.sound |
| `Fastroll.Stf.C69_shape` | propext, Classical.choice, Quot.sound |
| `Fastroll.Stf.C69_refused` | propext, Classical.choice, Quot.sound |
| `Fastroll.Stf.C69_progress` | propext, Classical.choice, Quot.sound |
| `Fastroll.Stf.C69_slot_partial` | propext, Classical.choice, Quot.sound |
| `Fastroll.Delta.C70_service_pays` | propext, Classical.choice, Quot.sound |
| `Fastroll.Delta.C70_rounds_end` | propext, Classical.choice, Quot.sound |
| `Fastroll.Delta.C70_no_gas_error` | propext, Classical.choice, Quot.sound |
| `Fastroll.Delta.C70_gas_error_partial` | propext, Quot.sound |
| `Fastroll.Delta.C70_trace` | propext, Classical.choice, Quot.sound |
| `Fastroll.Delta.C70_gas` | propext, Classical.choice, Quot.sound |
| `Fastroll.Delta.C70_authority` | propext, Classical.choice, Quot.sound |
| `Fastroll.Delta.C70_manager` | propext, Classical.choice, Quot.sound |
| `Fastroll.Delta.C70_roles` | propext, Classical.choice, Quot.sound |
| `Fastroll.Delta.C70_tokens_partial` | propext, Classical.choice, Quot.sound |
| `Fastroll.Delta.C71_accounts` | propext, Classical.choice, Quot.sound |
| `Fastroll.Delta.C71_bystander` | propext, Classical.choice, Quot.sound |
| `Fastroll.Delta.C71_modest` | propext, Classical.choice, Quot.sound |
| `Fastroll.Delta.C71_history` | propext, Classical.choice, Quot.sound |
| `Fastroll.Node.C72_block` | propext, Classical.choice, Quot.sound |
| `Fastroll.Node.C72_accounts_block` | propext, Classical.choice, Quot.sound |
| `Fastroll.Node.C72_accounts` | propext, Classical.choice, Quot.sound |
| `Fastroll.Node.C72_modest` | propext, Classical.choice, Quot.sound |
| `Fastroll.Node.C72_shape` | propext, Classical.choice, Quot.sound |
| `Fastroll.Node.C72_refused` | propext, Classical.choice, Quot.sound |
| `Fastroll.Node.C72_preimages` | propext, Classical.choice, Quot.sound |
| `Fastroll.Node.C72_provenance` | propext, Classical.choice, Quot.sound |
| `Fastroll.Node.C72_once` | propext, Classical.choice, Quot.sound |
| `Fastroll.Node.C72_validators` | propext, Classical.choice, Quot.sound |
| `Fastroll.Node.C72_authorizers` | propext, Classical.choice, Quot.sound |
| `Fastroll.Abort.C73_host_calls` | propext, Classical.choice, Quot.sound |
| `Fastroll.Abort.C73_service` | propext, Classical.choice, Quot.sound |
| `Fastroll.Abort.C73_causes` | propext, Classical.choice, Quot.sound |
| `Fastroll.Abort.C73_modest` | propext, Classical.choice, Quot.sound |
| `Fastroll.Abort.C73_loader` | propext, Classical.choice, Quot.sound |
| `Fastroll.Abort.C73_broken_code_stops` | propext, Classical.choice, Quot.sound |
| `Fastroll.Abort.C73_gift_aborts` | propext, Quot.sound |
| `Fastroll.Abort.C73_aborts_partial` | propext, Quot.sound |
| `Fastroll.Abort.C73_debt_partial` | propext, Quot.sound |
| `Fastroll.Abort.C73_chain_stops` | propext, Classical.choice, Quot.sound |
| `Fastroll.Abort.C73_always_stops` | propext, Classical.choice, Quot.sound |
| `Fastroll.Node.C74_hashed` | propext, Classical.choice, Quot.sound |
| `Fastroll.Node.C74_slots` | propext, Classical.choice, Quot.sound |
| `Fastroll.Node.C74_modest` | propext, Classical.choice, Quot.sound |
| `Fastroll.Node.C74_guaranteed` | propext, Classical.choice, Quot.sound |
| `Fastroll.Pool.C75_log` | propext, Classical.choice, Quot.sound |
| `Fastroll.Pool.C75_bound` | propext, Classical.choice, Quot.sound |
| `Fastroll.Pool.C75_exact` | propext, Classical.choice, Quot.sound |
| `Fastroll.Pool.C75_repeats` | propext, Classical.choice, Quot.sound |
| `Fastroll.Pool.C75_linear` | propext, Classical.choice, Quot.sound |
| `Fastroll.Pool.C75_deadlock` | propext, Classical.choice, Quot.sound |
| `Fastroll.Pool.C75_progress_partial` | propext, Classical.choice, Quot.sound |
| `Fastroll.Store.C76_store_partial` | propext, Classical.choice, Quot.sound |
| `Fastroll.Store.C76_roots_agree_partial` | propext, Classical.choice, Quot.sound |
| `Fastroll.Store.C76_root_binds_partial` | propext, Classical.choice, Quot.sound |
| `Fastroll.Store.C76_no_silent_loss` | propext |
| `Fastroll.Store.C76_actor_death` | propext, Quot.sound |
| `Fastroll.Store.C76_readd_kills_actor` | propext, Quot.sound |
| `Fastroll.Store.C76_components_partial` | propext, Classical.choice, Quot.sound |
| `Fastroll.Store.C76_components_bound_partial` | propext, Classical.choice, Quot.sound |
| `Fastroll.Store.C76_typed_reads` | propext, Quot.sound |
| `Fastroll.Readers.C77_commit_reads` | propext, Quot.sound |
| `Fastroll.Readers.C77_commit_end` | propext, Quot.sound |
| `Fastroll.Readers.C77_finalize_reads_partial` | propext, Quot.sound |
| `Fastroll.Readers.C77_finalize_end_partial` | propext, Quot.sound |
| `Fastroll.Readers.C77_finalize_missing` | propext, Classical.choice, Quot.sound |
| `Fastroll.Readers.C77_finalize_stale` | propext |
| `Fastroll.Announce.C78_announced` | propext, Classical.choice, Quot.sound |
| `Fastroll.Announce.C78_committed_announced` | propext, Classical.choice, Quot.sound |
| `Fastroll.Announce.C78_no_failure` | propext, Quot.sound |
| `Fastroll.Announce.C78_completes` | propext, Classical.choice, Quot.sound |
| `Fastroll.Announce.C78_lost_peer_partial` | propext, Classical.choice, Quot.sound |
| `Fastroll.Announce.C78_off_chain_partial` | propext, Classical.choice, Quot.sound |
| `Fastroll.Announce.C78_one_loss_partial` | propext, Classical.choice, Quot.sound |
| `Fastroll.Announce.C78_stays_off_partial` | propext |
| `Fastroll.Announce.C78_stall_partial` | propext, Classical.choice, Quot.sound |
| `Fastroll.Announce.C78_one_chain` | propext, Quot.sound |
| `Fastroll.Dial.C79_ready` | propext, Classical.choice, Quot.sound |
| `Fastroll.Dial.C79_both_sides` | propext, Classical.choice, Quot.sound |
| `Fastroll.Dial.C79_sound` | propext, Quot.sound |
| `Fastroll.Dial.C79_once` | propext, Classical.choice, Quot.sound |
| `Fastroll.Dial.C79_late_call` | propext, Quot.sound |
| `Fastroll.Dial.C79_no_timeout` | propext, Classical.choice, Quot.sound |
| `Fastroll.Dial.C79_last` | propext, Classical.choice, Quot.sound |
| `Fastroll.Dial.C79_gives_up_partial` | propext, Quot.sound |
| `Fastroll.Dial.C79_sequential` | propext, Classical.choice, Quot.sound |
| `Fastroll.Dial.C79_split_partial` | propext, Classical.choice, Quot.sound |
| `Fastroll.Dial.C79_any_three_partial` | propext, Classical.choice, Quot.sound |
| `Fastroll.Dial.C79_handle` | propext, Classical.choice, Quot.sound |
| `Fastroll.Dial.C79_sent` | propext, Classical.choice, Quot.sound |
| `Fastroll.Dial.C79_gap_partial` | propext, Quot.sound |
| `Fastroll.Restart.C80_first_start` | propext, Classical.choice, Quot.sound |
| `Fastroll.Restart.C80_durable_partial` | propext, Classical.choice, Quot.sound |
| `Fastroll.Restart.C80_root_lost_partial` | propext |
| `Fastroll.Restart.C80_second_start_partial` | propext, Quot.sound |
| `Fastroll.Restart.C80_one_life_partial` | propext, Classical.choice, Quot.sound |
| `Fastroll.Chain.C80_follows` | propext, Classical.choice, Quot.sound |
| `Fastroll.Chain.C80_stuck_partial` | propext, Classical.choice, Quot.sound |
| `Fastroll.Chain.C80_catches_up` | propext, Classical.choice, Quot.sound |
| `Fastroll.HexText.C81_round_trip` | propext, Quot.sound |
| `Fastroll.HexText.C81_exact` | propext, Quot.sound |
| `Fastroll.HexText.C81_number` | propext, Classical.choice, Quot.sound |
| `Fastroll.HexText.C81_unique` | propext, Classical.choice, Quot.sound |
| `Fastroll.HexText.C81_written` | propext, Quot.sound |
| `Fastroll.HexText.C81_readers_partial` | propext, Classical.choice, Quot.sound |
