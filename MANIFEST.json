{
 "claims": [
  {
   "property": "C01",
   "status": "proved",
   "theorems": [
    "Fastroll.Codec.C01_int_roundtrip",
    "Fastroll.Codec.C01_int_length",
    "Fastroll.Codec.C01_int_prefix_free",
    "Fastroll.Codec.C01_int_too_large",
    "Fastroll.Codec.C01_int_paper"
   ],
   "note": "Encoder, decoder and size hint transcribed; all u64 values, all suffixes."
  },
  {
   "property": "C02",
   "status": "partial",
   "theorems": [
    "Fastroll.Codec.C02_noncanonical_accepted",
    "Fastroll.Codec.C02_shortest_is_canonical_partial"
   ],
   "note": "The full claim is false of the code: C02_noncanonical_accepted is a witness. The partial theorem shows the canonical form is the unique shortest accepted one."
  },
  {
   "property": "C03",
   "status": "proved",
   "theorems": [
    "Fastroll.Codec.C03_fixed_paper",
    "Fastroll.Codec.C03_fixed_roundtrip",
    "Fastroll.Codec.C03_fixed_rejects",
    "Fastroll.Codec.C03_fixed_decode_rejects",
    "Fastroll.Codec.C03_fixed_canonical"
   ],
   "note": "All widths and values, including rejection."
  },
  {
   "property": "C04",
   "status": "proved",
   "theorems": [
    "Fastroll.Codec.C04_roundtrip",
    "Fastroll.Codec.C04_prefix_stable",
    "Fastroll.Codec.C04_injective",
    "Fastroll.Codec.C04_limit_rejected",
    "Fastroll.Codec.C04_discriminator_rejected",
    "Fastroll.Codec.C04_decoded_sizes",
    "Fastroll.Codec.C04_decoded_ok",
    "Fastroll.Codec.C04_normalizes",
    "Fastroll.Codec.C04_bits_rejected"
   ],
   "note": "Generic over a universe of wire types closed under nesting; map keys are integers in the universe, combinator lemmas hold for any strict order."
  },
  {
   "property": "C05",
   "status": "proved",
   "theorems": [
    "Fastroll.LimVec.C05_bound_invariant",
    "Fastroll.LimVec.C05_failure_no_effect",
    "Fastroll.LimVec.C05_push_iff",
    "Fastroll.LimVec.C05_shift_keeps_recent",
    "Fastroll.LimVec.C05_shift_evicts",
    "Fastroll.LimVec.C05_shift_zero_panics",
    "Fastroll.LimVec.C05_fixed_checked",
    "Fastroll.LimVec.C05_fixed_unchecked_wrong_size"
   ],
   "note": "All operations of LimitedVec; the unchecked FixedVec constructors and zero-capacity shift_push violate the claim and are recorded as negations."
  },
  {
   "property": "C06",
   "status": "proved",
   "theorems": [
    "Fastroll.Merkle.C06_justification_verifies",
    "Fastroll.Merkle.C06_justification_length",
    "Fastroll.Merkle.C06_justification_binding",
    "Fastroll.Merkle.C06_page_justification",
    "Fastroll.Merkle.C06_page_leaves",
    "Fastroll.Merkle.C06_node_paper",
    "Fastroll.Merkle.C06_roots_paper"
   ],
   "note": "Hash function abstract; binding is stated as 'agrees or exhibits a concrete collision among the hashed strings'. Completeness, size, pages and page leaves."
  },
  {
   "property": "C07",
   "status": "proved",
   "theorems": [
    "Fastroll.Merkle.C07_binary_counter",
    "Fastroll.Merkle.C07_count",
    "Fastroll.Merkle.C07_recursive_agrees",
    "Fastroll.Merkle.C07_eq_confuses_sizes",
    "Fastroll.Merkle.C07_super_peak",
    "Fastroll.Merkle.C07_binds"
   ],
   "note": "Peaks characterised exactly; recursive variant agrees. Equality of ranges via super-peak conflates sizes (negation theorem)."
  },
  {
   "property": "C08",
   "status": "proved",
   "theorems": [
    "Fastroll.Shuffle.C08_shuffle_perm",
    "Fastroll.Shuffle.C08_shuffle_short",
    "Fastroll.Shuffle.C08_shuffle_is_paper",
    "Fastroll.Shuffle.C08_shuffle_with_hash_perm",
    "Fastroll.Shuffle.C08_randoms"
   ],
   "note": "Permutation for every randomness stream, and equality with the paper's recursive shuffle."
  },
  {
   "property": "C09",
   "status": "proved",
   "theorems": [
    "Fastroll.Shuffle.C09_balanced",
    "Fastroll.Shuffle.C09_three_per_core",
    "Fastroll.Shuffle.C09_rotation_step",
    "Fastroll.Shuffle.C09_assignment"
   ],
   "note": "Any validators = k * cores; both chain specs give three per core. Reading entropy and validator sets from state is not modelled here."
  },
  {
   "property": "C10",
   "status": "partial",
   "theorems": [
    "Fastroll.Pvm.C10_two_reg",
    "Fastroll.Pvm.C10_two_reg_imm",
    "Fastroll.Pvm.C10_three_reg_partial",
    "Fastroll.Pvm.C10_signed_rem_wrong"
   ],
   "note": "All 83 register/immediate ALU instructions, every operand. The signed remainder violates the claim when the dividend is the most negative value and the divisor does not divide it: BadRem is the exact failing set (C10_signed_rem_wrong)."
  },
  {
   "property": "C11",
   "status": "partial",
   "theorems": [
    "Fastroll.Pvm.C11_refines_byte_map",
    "Fastroll.Pvm.C11_read_after_write",
    "Fastroll.Pvm.C11_failed_store_no_effect",
    "Fastroll.Pvm.C11_fault_address",
    "Fastroll.Pvm.C11_byte_fault_unaligned",
    "Fastroll.Pvm.C11_sbrk_partial",
    "Fastroll.Pvm.C11_read_only_preserved_partial",
    "Fastroll.Pvm.C11_sbrk_wraps",
    "Fastroll.Pvm.C11_sbrk_truncates"
   ],
   "note": "PARTIAL: proved for every history of loads, stores, permission changes and heap allocations; the two _partial theorems exclude allocations whose end passes 2^32. For those the code is wrong (C11_sbrk_wraps: read-only data becomes writable; C11_sbrk_truncates). Single-byte faults report an unaligned address (C11_byte_fault_unaligned)."
  },
  {
   "property": "C12",
   "status": "proved",
   "theorems": [
    "Fastroll.Pvm.C12_terminates",
    "Fastroll.Pvm.C12_charge_exact",
    "Fastroll.Pvm.C12_out_of_gas",
    "Fastroll.Pvm.C12_host_calls_terminate",
    "Fastroll.Pvm.C12_gas_used",
    "Fastroll.Pvm.C12_huge_limit",
    "Fastroll.Pvm.C12_sbrk_unpaid"
   ],
   "note": "All programs, states and host-function tables; every execution ends within gas+1 iterations. C12_sbrk_unpaid and C12_huge_limit record two deviations: sbrk takes effect before the gas check, and gas limits of 2^63 or more are negative from the start."
  },
  {
   "property": "C13",
   "status": "partial",
   "theorems": [
    "Fastroll.Pvm.C13_block_starts_partial",
    "Fastroll.Pvm.C13_targets_sound",
    "Fastroll.Pvm.C13_first_terminator_ignored",
    "Fastroll.Pvm.C13_step",
    "Fastroll.Pvm.C13_no_overlap",
    "Fastroll.Pvm.C13_no_instruction",
    "Fastroll.Pvm.C13_jump",
    "Fastroll.Pvm.C13_branch",
    "Fastroll.Pvm.C13_branch_imm",
    "Fastroll.Pvm.C13_dynamic_jump"
   ],
   "note": "Partial only for the converse direction of block starts: the loader never looks at the instruction at index 0 (C13_first_terminator_ignored), so a block following a terminator at index 0 is not recognised. Everything that is recognised is a block start, and every jump, branch and dynamic jump lands on one."
  },
  {
   "property": "C14",
   "status": "proved",
   "theorems": [
    "Fastroll.Pvm.C14_regions",
    "Fastroll.Pvm.C14_always_admitted",
    "Fastroll.Pvm.C14_heap_invariant",
    "Fastroll.Pvm.C14_registers",
    "Fastroll.Pvm.C14_read_only_escape"
   ],
   "note": "Every admitted program: regions as prescribed, separate, with the right bytes and permissions; the size check admits every decodable program. C14_read_only_escape shows sbrk wrap-around defeats the permissions."
  },
  {
   "property": "C15",
   "status": "proved",
   "theorems": [
    "Fastroll.Acc.C15_max_prefix",
    "Fastroll.Acc.C15_rounds_end",
    "Fastroll.Acc.C15_maximal",
    "Fastroll.Acc.C15_round",
    "Fastroll.Acc.C15_no_overflow",
    "Fastroll.Acc.C15_always_overflow",
    "Fastroll.Acc.C15_parallel",
    "Fastroll.Acc.C15_parallel_refused",
    "Fastroll.Acc.C15_limit",
    "Fastroll.Acc.C15_limit_wraps"
   ],
   "note": "Admission proved maximal for all reports and budgets. Execution of a service is a parameter, constrained to use at most its limit and to pay 10 + gas per transfer (C70_service_pays proves both of every program); under that, rounds end, gas is accounted exactly and GasOverflow cannot occur without always-accumulate services. C15_always_overflow shows a block failing with them."
  },
  {
   "property": "C16",
   "status": "proved",
   "theorems": [
    "Fastroll.Acc.C16_chain_ordered",
    "Fastroll.Acc.C16_chain_no_repeat",
    "Fastroll.Acc.C16_chain_only_offered",
    "Fastroll.Acc.C16_least",
    "Fastroll.Acc.C16_step"
   ],
   "note": "Proved for whole chains from genesis with any availability, slot gaps and gas cut-offs, and scheduling equals the least fixed point of the dependency relation."
  },
  {
   "property": "C17",
   "status": "partial",
   "theorems": [
    "Fastroll.Svc.C17_calls_follow_life_cycle",
    "Fastroll.Svc.C17_slots_ordered",
    "Fastroll.Svc.C17_preimage_lost_partial",
    "Fastroll.Svc.C17_provide_exact",
    "Fastroll.Svc.C17_provide_enters",
    "Fastroll.Svc.C17_integrate_enters",
    "Fastroll.Svc.C17_preimages_hashed"
   ],
   "note": "PARTIAL: every call is one life-cycle step, slots stay ordered, provided and integrated preimages only make open requests available and carry the requested hash and length. The preimage of an available request can be lost (theorem C17_preimage_lost_partial), as the protocol itself specifies."
  },
  {
   "property": "C18",
   "status": "partial",
   "theorems": [
    "Fastroll.Svc.C18_answer_is_availability",
    "Fastroll.Svc.C18_calls_keep_answers_partial",
    "Fastroll.Svc.C18_entering_keeps_answers",
    "Fastroll.Svc.C18_answer_lost_partial"
   ],
   "note": "PARTIAL: answers are exactly the availability intervals, and within the retention window calls, provided and integrated preimages keep them, except for accounts asking for one hash under two lengths, where an answer can be lost (C18_answer_lost_partial)."
  },
  {
   "property": "C19",
   "status": "proved",
   "theorems": [
    "Fastroll.Svc.C19_footprint_exact",
    "Fastroll.Svc.C19_threshold_exact"
   ],
   "note": "For every sequence of host calls on the sandbox, under the refinement conditions of C36 and with usage within the counters' range."
  },
  {
   "property": "C20",
   "status": "partial",
   "theorems": [
    "Fastroll.Svc.C20_tokens_conserved",
    "Fastroll.Svc.C20_solvent",
    "Fastroll.Svc.C20_round_conserved_partial"
   ],
   "note": "For every sequence of host calls on the sandbox, both contexts (conditions as C36). C20_round_conserved_partial lifts it to a merged round; it assumes each result conserves tokens, which C21 shows can fail."
  },
  {
   "property": "C21",
   "status": "partial",
   "theorems": [
    "Fastroll.Svc.C21_eject_moves_balance_partial",
    "Fastroll.Svc.C21_eject_after_running_mints_partial",
    "Fastroll.Svc.C21_registrar_mints_partial",
    "Fastroll.Svc.C21_eject_next_round_mints_partial"
   ],
   "note": "PARTIAL: holds when the ejected service has not run in the block and the identifier is not re-created; three theorems, one over two full rounds, show that otherwise tokens are minted."
  },
  {
   "property": "C22",
   "status": "proved",
   "theorems": [
    "Fastroll.Svc.C22_next_id_free",
    "Fastroll.Svc.C22_created_id_fresh",
    "Fastroll.Svc.C22_search_first_free"
   ],
   "note": "Identifier freshness for all calls; the search is first-free in ring order and terminates exactly when a public identifier is free."
  },
  {
   "property": "C23",
   "status": "proved",
   "theorems": [
    "Fastroll.Svc.C23_checkpoint_saved",
    "Fastroll.Svc.C23_effect"
   ],
   "note": "One accumulation from start to result, for every program: the effect is that of all calls on halt, of the calls up to the last checkpoint otherwise."
  },
  {
   "property": "C24",
   "status": "partial",
   "theorems": [
    "Fastroll.Svc.C24_assigners_resolved",
    "Fastroll.Svc.C24_other_calls",
    "Fastroll.Svc.C24_not_holder",
    "Fastroll.Svc.C24_not_designate",
    "Fastroll.Svc.C24_round_authority",
    "Fastroll.Svc.C24_round_settled",
    "Fastroll.Svc.C24_roles_resolved",
    "Fastroll.Svc.C24_assigner_choice_lost_partial",
    "Fastroll.Svc.C24_self_bless_creates_partial",
    "Fastroll.Svc.C24_two_self_bless_block_partial"
   ],
   "note": "PARTIAL: every committed privilege change is authorised for all programs and rounds, and designate and registrar follow R exactly. Deviations: the assigners' choices are lost once the manager blesses; a service blessing itself uses the registrar right inside its own context and the created account is committed; two such services make the round unmergeable. The new assigners are characterised exactly (C24_assigners_resolved): the manager's list if it blesses, else each assigner's own choice."
  },
  {
   "property": "C25",
   "status": "partial",
   "theorems": [
    "Fastroll.Safrole.C25_keeps_lowest",
    "Fastroll.Safrole.C25_order_independent",
    "Fastroll.Safrole.C25_heap_independent",
    "Fastroll.Safrole.C25_decode_encode",
    "Fastroll.Safrole.C25_accepted_all_kept",
    "Fastroll.Safrole.C25_accept_iff",
    "Fastroll.Safrole.C25_useless_exact",
    "Fastroll.Safrole.C25_useless_needs_limit",
    "Fastroll.Safrole.C25_epoch",
    "Fastroll.Safrole.C25_no_duplicates",
    "Fastroll.Safrole.C25_same_id_partial",
    "Fastroll.Safrole.C25_distinct"
   ],
   "note": "PARTIAL. For any heap with BinaryHeap's contract, any capacity and any number of tickets: the accumulator holds the lowest, independently of order and heap layout; encoding round trip; acceptance of an extrinsic characterised exactly; accepted tickets are all kept; the useless check is exact; over an epoch of blocks the accumulator is the lowest of everything offered. Missing: identifiers are not forced to be distinct - a ticket with an identifier already accumulated but another attempt is accepted (C25_same_id_partial); with identifiers that determine the attempt they are (C25_distinct)."
  },
  {
   "property": "C26",
   "status": "proved",
   "theorems": [
    "Fastroll.Safrole.C26_outside_in",
    "Fastroll.Safrole.C26_never_stuck",
    "Fastroll.Safrole.C26_every_slot_sealed",
    "Fastroll.Safrole.C26_mode",
    "Fastroll.Safrole.C26_winners_seal_next"
   ],
   "note": "Outside-in order, choice of mode, fallback keys, every slot sealed after any chain of blocks, no failure on well-formed states, and the winning-tickets marker of an epoch is exactly the next epoch's sealers. Hashes and ring signatures are abstract; chain constants are parameters."
  },
  {
   "property": "C27",
   "status": "partial",
   "theorems": [
    "Fastroll.Judge.C27_accept_iff",
    "Fastroll.Judge.C27_one_verdict",
    "Fastroll.Judge.C27_sets",
    "Fastroll.Judge.C27_final",
    "Fastroll.Judge.C27_sorted",
    "Fastroll.Judge.C27_offenders",
    "Fastroll.Judge.C27_offender_once",
    "Fastroll.Judge.C27_offender_twice_partial",
    "Fastroll.Judge.C27_evidence",
    "Fastroll.Judge.C27_consequences",
    "Fastroll.Judge.C27_accountability",
    "Fastroll.Judge.C27_future_epoch_partial",
    "Fastroll.Judge.C27_late_offender_partial"
   ],
   "note": "PARTIAL. A dispute extrinsic is accepted exactly when it meets the specification; over any chain of blocks no report is in two of the three sets, verdicts are final and recorded once, offenders stay. Missing: a key that is both culprit and fault in one extrinsic is recorded twice (witness, with the bound two), verdicts of a future epoch are judged by the past set (witness), evidence about a report judged in an earlier block is always refused (the Gray Paper accepts it)."
  },
  {
   "property": "C28",
   "status": "proved",
   "theorems": [
    "Fastroll.Reports.C28_available",
    "Fastroll.Reports.C28_released",
    "Fastroll.Reports.C28_once",
    "Fastroll.Reports.C28_quorum",
    "Fastroll.Reports.C28_accept_iff",
    "Fastroll.Reports.C28_total",
    "Fastroll.Reports.C28_no_panic"
   ],
   "note": "Any number of validators, cores and assurances. Signature verification is a function; the active set of the quorum theorem has V entries."
  },
  {
   "property": "C29",
   "status": "proved",
   "theorems": [
    "Fastroll.Reports.C29_one_per_core",
    "Fastroll.Reports.C29_pending",
    "Fastroll.Reports.C29_never_over",
    "Fastroll.Reports.C29_leaves",
    "Fastroll.Reports.C29_judged",
    "Fastroll.Reports.C29_timeout"
   ],
   "note": "Over any chain. A judged report that shares its hash with another pending one may stay: the statement gives the colliding report explicitly. Judgements, timeouts and availability are characterised exactly."
  },
  {
   "property": "C30",
   "status": "partial",
   "theorems": [
    "Fastroll.StateCache.C30_answers_partial",
    "Fastroll.StateCache.C30_rollback_partial",
    "Fastroll.StateCache.C30_commit_partial",
    "Fastroll.StateCache.C30_clean_read_sees_uncommitted",
    "Fastroll.StateCache.C30_rollback_leaves_phantom",
    "Fastroll.StateCache.C30_readded_key_panics",
    "Fastroll.StateCache.C30_evicted_write_is_lost"
   ],
   "note": "PARTIAL: state cache model (state/src/cache.rs, manager.rs) over any list of reads, pre-state reads, adds, updates, removals, commits, stagings, finalizations, rollbacks and clean evictions. Every answer, the state after rollback and the committed state are those of a two-map transaction. Missing, and shown false by witnesses: pre-state reads and removals of keys added since the last commit (clean reads see the uncommitted value, a rollback then leaves a phantom, a re-added key panics the commit), and a cache that evicts dirty entries loses writes. The trie is an abstract durable map here; it is C32's subject."
  },
  {
   "property": "C31",
   "status": "proved",
   "theorems": [
    "Fastroll.CachedDb.C31_coherent",
    "Fastroll.CachedDb.C31_read_last_write",
    "Fastroll.CachedDb.C31_exclusive_schedules",
    "Fastroll.CachedDb.C31_overtaken_read_goes_stale",
    "Fastroll.CachedDb.C31_crossed_writes_go_stale"
   ],
   "note": "Write-through cache over the database: every sequential schedule with any evictions is coherent, and interleaved operations are coherent as long as no two operations on one key overlap with a write among them; overlapping read/write and write/write schedules leave a stale cache (two witnesses)."
  },
  {
   "property": "C32",
   "status": "partial",
   "theorems": [
    "Fastroll.Trie.C32_history_partial",
    "Fastroll.Trie.C32_same_map_same_trie",
    "Fastroll.Trie.C32_batch_order_partial",
    "Fastroll.Trie.C32_root_binds_map",
    "Fastroll.Trie.C32_reopened_root",
    "Fastroll.Trie.C32_only_key_cannot_be_removed",
    "Fastroll.Trie.C32_order_matters_for_the_only_key",
    "Fastroll.Trie.C32_adding_a_present_key_panics",
    "Fastroll.Trie.C32_failed_commit_leaks",
    "Fastroll.Trie.C32_torn_commit_loses_long_values"
   ],
   "note": "PARTIAL: proved for every history of commits, staged blocks and finalizations in which no batch removes the last key (the code refuses that: C32_only_key_cannot_be_removed) and entries are legal (no add of a present key, no update or removal of a missing one; those fail, C32_adding_a_present_key_panics). Order independence needs a present key the batch keeps (C32_order_matters_for_the_only_key). Findings: a failed commit leaks into the next one, the root is lost on restart, and a crash between the two database writes loses long values. Database errors and the write-through caches (C31) are not in this model."
  },
  {
   "property": "C33",
   "status": "proved",
   "theorems": [
    "Fastroll.Trie.C33_nodes_round_trip",
    "Fastroll.Trie.C33_encoding_is_gray_paper",
    "Fastroll.Trie.C33_encodings_never_coincide",
    "Fastroll.Trie.C33_branch_forgets_one_bit",
    "Fastroll.Trie.C33_decoded_nodes_are_well_formed",
    "Fastroll.Trie.C33_padding_is_not_checked",
    "Fastroll.Trie.C33_paths_round_trip"
   ],
   "note": "Node codec of the state trie on bit lists: round trip, exact 512 bits, agreement with the Gray Paper bit strings, injectivity, the one forgotten bit of a branch, totality of the decoder. Witness: padding is not checked."
  },
  {
   "property": "C34",
   "status": "partial",
   "theorems": [
    "Fastroll.StateKeys.C34_components_and_metadata_distinct",
    "Fastroll.StateKeys.C34_service_is_recoverable",
    "Fastroll.StateKeys.C34_entries_never_components_partial",
    "Fastroll.StateKeys.C34_large_services_are_apart",
    "Fastroll.StateKeys.C34_same_service_partial",
    "Fastroll.StateKeys.C34_hashed_bytes_determine_item",
    "Fastroll.StateKeys.C34_largest_lookups_alias"
   ],
   "note": "PARTIAL: components, metadata and different services' entries are exactly distinct, and the service is recovered; services numbered 256 and above are exactly distinct from components and metadata. An entry of services 1-16 or 255 equals a component or metadata key only with an explicit 27-byte hash prefix; two entries of one service share a key only with an explicit 27-byte truncated collision or as one of two aliases (witness) of lookups at the largest lengths."
  },
  {
   "property": "C35",
   "status": "proved",
   "theorems": [
    "Fastroll.Ancestors.C35_latest_kept",
    "Fastroll.Ancestors.C35_contains_iff",
    "Fastroll.Ancestors.C35_refines_record",
    "Fastroll.Ancestors.C35_removal_by_hash_disagrees"
   ],
   "note": "Every addition sequence, capacity and heap meeting its contract; membership characterised by counting later entries. With removals: refinement to a bounded record when a hash goes with one slot. remove() filters the heap by hash only: C35_removal_by_hash_disagrees shows set and heap parting otherwise."
  },
  {
   "property": "C36",
   "status": "partial",
   "theorems": [
    "Fastroll.Svc.C36_calls_refine",
    "Fastroll.Svc.C36_answers_refine",
    "Fastroll.Svc.C36_programs_refine",
    "Fastroll.Svc.C36_commit_is_view",
    "Fastroll.Svc.C36_first_round_end_to_end",
    "Fastroll.Svc.C36_recreate_ejected_partial",
    "Fastroll.Svc.C36_eject_after_running_partial"
   ],
   "note": "PARTIAL: refinement to plain maps for every call sequence and program, and write-back equals the view. Two theorems show where it fails: re-creating an ejected identifier, and ejecting a service whose metadata lost its snapshot."
  },
  {
   "property": "C37",
   "status": "proved",
   "theorems": [
    "Fastroll.Reports.C37_step",
    "Fastroll.Reports.C37_bounded",
    "Fastroll.Reports.C37_idle",
    "Fastroll.Reports.C37_sublist",
    "Fastroll.Reports.C37_newest",
    "Fastroll.Reports.C37_budget"
   ],
   "note": "Any pool bound, queue length and chain; exact pool after each block and after idle chains, order, newest entry, and the consumption budget."
  },
  {
   "property": "C38",
   "status": "proved",
   "theorems": [
    "Fastroll.Reports.C38_history",
    "Fastroll.Reports.C38_step",
    "Fastroll.Reports.C38_headers"
   ],
   "note": "From the empty history exactly, from any history for headers, and step by step."
  },
  {
   "property": "C39",
   "status": "proved",
   "theorems": [
    "Fastroll.Safrole.C39_rotation",
    "Fastroll.Safrole.C39_punished_excluded",
    "Fastroll.Safrole.C39_pending_unpunished",
    "Fastroll.Safrole.C39_ring_root",
    "Fastroll.Safrole.C39_epoch_marker",
    "Fastroll.Safrole.C39_slots_increase"
   ],
   "note": "Over any chain of blocks: validator sets and entropies are the last three snapshots at epoch openings; punished validators replaced by the null key in place; ring root always that of the pending set; epoch marker names what the epochs will use; slots increase."
  },
  {
   "property": "C40",
   "status": "partial",
   "theorems": [
    "Fastroll.Ring.C40_epoch_ring_root",
    "Fastroll.Ring.C40_ticket_verifier_partial",
    "Fastroll.Ring.C40_block_requests",
    "Fastroll.Ring.C40_tickets_epoch_start_designation_wrong",
    "Fastroll.Ring.C40_rejected_block_poisons_ring",
    "Fastroll.Ring.C40_rejected_block_rotates_ring",
    "Fastroll.Ring.C40_punished_zeroed"
   ],
   "note": "PARTIAL. Epoch ring root: correct in every history (rejections, forks, task timings) or an explicit hash collision. Ticket verifier: correct when no epoch-starting block designates a staging set and the ring cache is put back after rejections; missing cases are false in the code (argument shadowed, requested set never compared), with witnesses C40_tickets_epoch_start_designation_wrong, C40_rejected_block_poisons_ring and C40_rejected_block_rotates_ring."
  },
  {
   "property": "C41",
   "status": "proved",
   "theorems": [
    "Fastroll.Svc.C41_window_written",
    "Fastroll.Svc.C41_calls_serve_datum",
    "Fastroll.Svc.C41_info_layout"
   ],
   "note": "fetch, lookup, read, info: the window octet by octet, on the sandbox."
  },
  {
   "property": "C42",
   "status": "partial",
   "theorems": [
    "Fastroll.Pvm.C42_loads_partial",
    "Fastroll.Pvm.C42_missing_operand_panics",
    "Fastroll.Pvm.C42_long_instruction_refused",
    "Fastroll.Pvm.C42_huge_table_panics",
    "Fastroll.Pvm.C42_panic_causes"
   ],
   "note": "False of the code: the loader panics on missing operand bytes and huge jump-table lengths and refuses instructions longer than 16 bytes. The exact set of inputs that load, fail or crash is proved."
  },
  {
   "property": "C43",
   "status": "proved",
   "theorems": [
    "Fastroll.Acc.C43_queue_window",
    "Fastroll.Acc.C43_oldest_first",
    "Fastroll.Acc.C43_history_window"
   ],
   "note": "All ring contents, epoch lengths and slot gaps."
  },
  {
   "property": "C44",
   "status": "proved",
   "theorems": [
    "Fastroll.Svc.C44_merge_isolated",
    "Fastroll.Svc.C44_round_reports",
    "Fastroll.Svc.C44_conflict_rejected"
   ],
   "note": "All rounds whose sandboxes are consistent, whose hosts exist and are not ejected in the round."
  },
  {
   "property": "C45",
   "status": "proved",
   "theorems": [
    "Fastroll.Reports.C45_once",
    "Fastroll.Reports.C45_package"
   ],
   "note": "Header hashes along the chain are assumed distinct (a repetition would be a collision of header hashes). The anchor is part of the report, so no report is placed twice."
  },
  {
   "property": "C46",
   "status": "proved",
   "theorems": [
    "Fastroll.Reports.C46_accept_iff",
    "Fastroll.Reports.C46_placed",
    "Fastroll.Reports.C46_reporters"
   ],
   "note": "The gas limit per core is below 2^64-1. Signatures, hashes, guarantor assignments (see C09), ancestor lookup and accumulation state are inputs."
  },
  {
   "property": "C47",
   "status": "partial",
   "theorems": [
    "Fastroll.Wire.C47_block",
    "Fastroll.Wire.C47_report",
    "Fastroll.Wire.C47_package_partial",
    "Fastroll.Wire.C47_import_index_aliases",
    "Fastroll.Wire.C47_header_binds",
    "Fastroll.Wire.C47_block_binds",
    "Fastroll.Wire.C47_set_decoding_not_canonical"
   ],
   "note": "PARTIAL only in two places: segment indices from 2^15 on (the u16 type admits them) alias the other variant of an import, C47_import_index_aliases; and sets and dictionaries are accepted unsorted and with duplicates, C47_set_decoding_not_canonical. Layouts, round trips and binding of the header hash are proved for all values of the types."
  },
  {
   "property": "C48",
   "status": "partial",
   "theorems": [
    "Fastroll.Wire.C48_vec_panics_iff",
    "Fastroll.Wire.C48_block_decoder_panics",
    "Fastroll.Wire.C48_header_decoder_panics",
    "Fastroll.Wire.C48_service_code_panics",
    "Fastroll.Wire.C48_no_panic_partial",
    "Fastroll.Wire.C48_bounded_types_no_panic"
   ],
   "note": "The full claim is false of the code: Vec<T> and ByteSequence reserve memory for the announced length before reading, so lengths of 2^63 bytes or more panic with capacity overflow (C48_block_decoder_panics, C48_header_decoder_panics, C48_service_code_panics). The partial theorem covers inputs without the bytes 0xFE and 0xFF; types without growing vectors never panic. Allocations that are in range but exceed the machine's memory are not modelled."
  },
  {
   "property": "C49",
   "status": "partial",
   "theorems": [
    "Fastroll.Wire.C49_operand_iff",
    "Fastroll.Wire.C49_service_code_partial",
    "Fastroll.Wire.C49_service_code_shifted"
   ],
   "note": "The full claim is false of the code: both fields are Vec<u8> and go through the integer codec byte by byte. C49_operand_iff says exactly when the operand is right; service code is parsed correctly when its metadata has no byte from 128 on, and C49_service_code_shifted shows the first code byte swallowed otherwise."
  },
  {
   "property": "C50",
   "status": "partial",
   "theorems": [
    "Fastroll.Pvm.C50_step_partial",
    "Fastroll.Pvm.C50_paper_deterministic",
    "Fastroll.Pvm.C50_run_partial",
    "Fastroll.Pvm.C50_host_number_truncated",
    "Fastroll.Pvm.C50_past_end_error",
    "Fastroll.Pvm.C50_store_fault_resets_pc",
    "Fastroll.Pvm.C50_second_instruction_rejected"
   ],
   "note": "PARTIAL: proved for every program, state and instruction except where the code differs from the paper, each shown by a theorem: host-call numbers above 255 (C50_host_number_truncated), ranges that leave memory at the top (C50_past_end_error), a store fault resets the program counter (C50_store_fault_resets_pc; C50_step does not constrain the counter after a fault), jumps to the position after a block-ending first instruction (C50_second_instruction_rejected), signed remainders that overflow (C10), and sbrk (C11). The paper's step is shown to be a function (C50_paper_deterministic), and runs of any length follow (C50_run_partial)."
  },
  {
   "property": "C51",
   "status": "partial",
   "theorems": [
    "Fastroll.Refine.C51_calls_partial",
    "Fastroll.Refine.C51_invoke_partial",
    "Fastroll.Refine.C51_inner_run_partial",
    "Fastroll.Refine.C51_id_not_least",
    "Fastroll.Refine.C51_no_inner_memory",
    "Fastroll.Refine.C51_pages_refused",
    "Fastroll.Refine.C51_pages_partial",
    "Fastroll.Refine.C51_peek_poke_refused",
    "Fastroll.Refine.C51_inner_access_aborts",
    "Fastroll.Refine.C51_inner_sbrk_crashes",
    "Fastroll.Refine.C51_pages_crash",
    "Fastroll.Refine.C51_pages_wrap_granted",
    "Fastroll.Refine.C51_host_number_lost",
    "Fastroll.Refine.C51_empty_range_panics",
    "Fastroll.Refine.C51_gas_limit_aborts",
    "Fastroll.Refine.C51_out_of_gas_wraps",
    "Fastroll.Refine.C51_historical",
    "Fastroll.Refine.C51_gas",
    "Fastroll.Refine.C51_pages_proper_partial",
    "Fastroll.Refine.C51_pages_closed",
    "Fastroll.Refine.C51_host_number_told"
   ],
   "note": "PARTIAL: export, machine, peek, poke, expunge and historical_lookup are shown to follow the paper (C51_calls_partial, C51_historical), pages on all but three kinds of request (C51_pages_partial) and, for machines with a proper memory, which the code never makes, on all requests for writable pages and in modes 3 and 4 (C51_pages_proper_partial; missing there: pages not yet writable, where C51_pages_closed shows that the code refuses what the paper grants), invoke whenever it returns (C51_invoke_partial, C51_host_number_told), and finished inner runs to be the paper's (C51_inner_run_partial). The full claim is false of the code: inner machines never have memory (C51_no_inner_memory), so pages is always refused (C51_pages_refused), peek and poke never succeed (C51_peek_poke_refused), an inner load or store aborts the refinement (C51_inner_access_aborts) and an inner sbrk crashes the thread (C51_inner_sbrk_crashes); further departures are C51_pages_crash, C51_pages_wrap_granted, C51_host_number_lost, C51_empty_range_panics, C51_gas_limit_aborts, C51_id_not_least and C51_out_of_gas_wraps. Every result of refinement's own calls costs ten units and is out of gas exactly below ten, then without effect (C51_gas)."
  },
  {
   "property": "C52",
   "status": "proved",
   "theorems": [
    "Fastroll.Refine.C52_isolated",
    "Fastroll.Refine.C52_ids_fresh",
    "Fastroll.Refine.C52_exports"
   ],
   "note": "For every sequence of calls starting from the empty context of a refinement."
  },
  {
   "property": "C53",
   "status": "partial",
   "theorems": [
    "Fastroll.Stats.C53_current_epoch",
    "Fastroll.Stats.C53_previous_epoch",
    "Fastroll.Stats.C53_cores_partial",
    "Fastroll.Stats.C53_da_load_iff",
    "Fastroll.Stats.C53_services",
    "Fastroll.Stats.C53_total",
    "Fastroll.Stats.C53_da_load_wrong",
    "Fastroll.Stats.C53_core_exports_wrap"
   ],
   "note": "PARTIAL: validators over any chain of blocks, services and the other core fields are right; the data-availability load of a core is wrong unless the number of exported segments is a multiple of 64 (C53_da_load_iff, C53_da_load_wrong). Counters are exact modulo their width (C53_core_exports_wrap shows one wrapping). The active set is taken to hold one key per validator (it is a FixedVec)."
  },
  {
   "property": "C54",
   "status": "proved",
   "theorems": [
    "Fastroll.Da.C54_encode",
    "Fastroll.Da.C54_recover",
    "Fastroll.Da.C54_insufficient",
    "Fastroll.Da.C54_short_chunk",
    "Fastroll.Da.C54_chunks_unchecked",
    "Fastroll.Da.C54_zero_pad",
    "Fastroll.Da.C54_zero_pad_empty"
   ],
   "note": "The Reed-Solomon library is a parameter with the erasure-correcting property (Mds) as hypothesis; toy_mds shows it satisfiable. The property is about chunks that the encoder made: C54_short_chunk and C54_chunks_unchecked show what recovery does with chunks of unequal or odd length (crash, octet lost), and C54_zero_pad_empty that zero_pad of nothing adds a whole block where the Gray Paper adds nothing."
  },
  {
   "property": "C55",
   "status": "proved",
   "theorems": [
    "Fastroll.Da.C55_paged_proofs",
    "Fastroll.Da.C55_segment_binding",
    "Fastroll.Da.C55_erasure_root",
    "Fastroll.Da.C55_share_binding",
    "Fastroll.Da.C55_specs",
    "Fastroll.Da.C55_count_wraps"
   ],
   "note": "The hash is a parameter with 32-octet outputs; bindings are 'equal or an explicit collision'. C55_count_wraps: with 2^16 segments the count in the specification is 0 (C55_specs needs fewer than 2^16 segments and a bundle below 2^32 octets)."
  },
  {
   "property": "C56",
   "status": "partial",
   "theorems": [
    "Fastroll.Da.C56_roundtrip",
    "Fastroll.Da.C56_layout_partial",
    "Fastroll.Da.C56_length",
    "Fastroll.Da.C56_shape_unchecked"
   ],
   "note": "PARTIAL: round trip for all bundles of matching shape; the layout is the Gray Paper's exactly when no octet of an imported segment is 128 or more (C56_layout_partial), because segments pass through the integer codec octet by octet; C56_length counts the surplus. C56_shape_unchecked: the encoder does not check the shape, so two different values have one encoding."
  },
  {
   "property": "C57",
   "status": "partial",
   "theorems": [
    "Fastroll.Wr.C57_counts",
    "Fastroll.Wr.C57_size",
    "Fastroll.Wr.C57_gas_partial",
    "Fastroll.Wr.C57_gas_modulo",
    "Fastroll.Wr.C57_gas_wraps",
    "Fastroll.Wr.C57_countable"
   ],
   "note": "PARTIAL: counts and size are exact; gas only while the sums stay below 2^64 (C57_gas_partial; C57_gas_modulo says what is compared in general, C57_gas_wraps is a counterexample). Nothing in the repository calls the validations."
  },
  {
   "property": "C58",
   "status": "partial",
   "theorems": [
    "Fastroll.Wr.C58_frame",
    "Fastroll.Wr.C58_size",
    "Fastroll.Wr.C58_digests_partial",
    "Fastroll.Wr.C58_exports_partial",
    "Fastroll.Wr.C58_oversize_spreads",
    "Fastroll.Wr.C58_oversize_differs",
    "Fastroll.Wr.C58_bad_exports_counted",
    "Fastroll.Wr.C58_zero_segments_dropped",
    "Fastroll.Wr.C58_lookup_multiplicity",
    "Fastroll.Wr.C58_made",
    "Fastroll.Wr.C58_counts_wrap",
    "Fastroll.Wr.C58_never"
   ],
   "note": "PARTIAL: frame, size limit, offsets and digests hold; results agree with the Gray Paper until an output is turned down (C58_digests_partial), exports if moreover failing items declare none (C58_exports_partial). Departures: C58_oversize_spreads, C58_oversize_differs, C58_bad_exports_counted, C58_zero_segments_dropped, C58_lookup_multiplicity, C58_counts_wrap. Import segments, extrinsic data, bundle and lookup table are unimplemented in the code and parameters here; C58_never: as it stands the function never returns a report."
  },
  {
   "property": "C59",
   "status": "partial",
   "theorems": [
    "Fastroll.Fetch.C59_fetch_partial",
    "Fastroll.Fetch.C59_summaries_length",
    "Fastroll.Fetch.C59_summaries_wrong",
    "Fastroll.Fetch.C59_own_item_unchecked"
   ],
   "note": "PARTIAL: holds for every selector but 11 (C59_fetch_partial), with operands whose traces have no octet of 128 or more (the C49 departure) for selectors 14 and 15. Selector 11 is wrong whenever the package has an item (C59_summaries_length, C59_summaries_wrong). C59_own_item_unchecked: indices that panic."
  },
  {
   "property": "C60",
   "status": "partial",
   "theorems": [
    "Fastroll.Comp.C60_authorizers",
    "Fastroll.Comp.C60_history",
    "Fastroll.Comp.C60_small",
    "Fastroll.Comp.C60_safrole",
    "Fastroll.Comp.C60_heap_order",
    "Fastroll.Comp.C60_reports",
    "Fastroll.Comp.C60_privileges",
    "Fastroll.Comp.C60_statistics_partial",
    "Fastroll.Comp.C60_accounts",
    "Fastroll.Comp.C60_reload",
    "Fastroll.Comp.C60_injective",
    "Fastroll.Comp.C60_statistics_differ",
    "Fastroll.Comp.C60_accumulator_cut",
    "Fastroll.Comp.C60_lookups_panic",
    "Fastroll.Comp.C60_trailing"
   ],
   "note": "All sixteen components plus metadata, lookups, storage and preimage entries, decoder and encoder, and the state as a whole. PARTIAL in the statistics only: service identifiers take four octets instead of the Gray Paper's integer encoding, proved as C60_statistics_differ (the round trip holds). The allocator's bound on reserved capacity is a parameter of the well-formedness predicates."
  },
  {
   "property": "C61",
   "status": "partial",
   "theorems": [
    "Fastroll.Entry.C61_what",
    "Fastroll.Entry.C61_table",
    "Fastroll.Entry.C61_unknown",
    "Fastroll.Entry.C61_standard",
    "Fastroll.Entry.C61_unambiguous",
    "Fastroll.Entry.C61_cache",
    "Fastroll.Entry.C61_invoke_partial",
    "Fastroll.Entry.C61_malformed",
    "Fastroll.Entry.C61_long_args",
    "Fastroll.Entry.C61_halt_high",
    "Fastroll.Entry.C61_crash",
    "Fastroll.Entry.C61_gas_call",
    "Fastroll.Entry.C61_fetch_call_partial",
    "Fastroll.Entry.C61_refine_bad",
    "Fastroll.Entry.C61_refine_big_partial",
    "Fastroll.Entry.C61_refine_args",
    "Fastroll.Entry.C61_refine_partial",
    "Fastroll.Entry.C61_authorize_bad",
    "Fastroll.Entry.C61_authorize_partial",
    "Fastroll.Entry.C61_undecodable"
   ],
   "note": "PARTIAL: the host-call table, the standard program format (accepted iff it is the layout, unambiguous), the cache (agrees with loading or exhibits a hash collision), the initial state, R, and the glue of refinement and authorization are proved. Departures proved beside: malformed blobs and unloadable code end in an error instead of a panic (C61_malformed), halting with register 7 at or above 2^32 is an error (C61_halt_high), undecodable service code is an error or a thread panic instead of BAD (C61_undecodable), payload octets above 127 change the arguments (C61_refine_args), metadata do not count towards BIG. Missing: runs ending in a host or machine error, and runs after which the low zone is accessible (C14)."
  },
  {
   "property": "C62",
   "status": "partial",
   "theorems": [
    "Fastroll.Chain.C62_complete",
    "Fastroll.Chain.C62_sound_partial",
    "Fastroll.Chain.C62_early",
    "Fastroll.Chain.C62_history_partial",
    "Fastroll.Chain.C62_slots",
    "Fastroll.Chain.C62_commits",
    "Fastroll.Chain.C62_agree_partial",
    "Fastroll.Chain.C62_zero_parent_unchecked",
    "Fastroll.Chain.C62_zero_parent_breaks",
    "Fastroll.Chain.C62_authored",
    "Fastroll.Chain.C62_author_ancestors",
    "Fastroll.Chain.C62_author_stuck"
   ],
   "note": "PARTIAL: completeness of acceptance, chains, slots, commitment of the header hash to the state, agreement of nodes and acceptance of authored blocks are proved for any transition function. Departures proved beside: slots count as begun six seconds early (C62_early); blocks with a zero parent hash are accepted unchecked and break the chain (C62_zero_parent_unchecked, C62_zero_parent_breaks); an author does not record its own block among its ancestors (C62_author_ancestors) and gets stuck when its second phase fails (C62_author_stuck). Rejected blocks may change the ring cache (C40). The phases themselves are parameters."
  },
  {
   "property": "C63",
   "status": "partial",
   "theorems": [
    "Fastroll.Fork.C63_session_partial",
    "Fastroll.Fork.C63_siblings",
    "Fastroll.Fork.C63_invalid_child",
    "Fastroll.Fork.C63_unreported_key",
    "Fastroll.Fork.C63_unknown_hash",
    "Fastroll.Fork.C63_second_start"
   ],
   "note": "PARTIAL: proved for all sessions, with header hashes in play assumed different and blocks with a zero parent hash left out (C62). States are exact if blocks report all keys they add; preimages are not reported, so entries disappear from answers (C63_unreported_key). Departures proved beside: an invalid child finalises its parent and drops the siblings (C63_invalid_child); unknown hashes get the finalised state (C63_unknown_hash). The socket and the codec of messages are in C66."
  },
  {
   "property": "C64",
   "status": "partial",
   "theorems": [
    "Fastroll.Conc.C64_any_schedule",
    "Fastroll.Conc.C64_terminates",
    "Fastroll.Conc.C64_first_phase_partial",
    "Fastroll.Conc.C64_epoch_sets_partial",
    "Fastroll.Conc.C64_entropy_rotation_partial",
    "Fastroll.Conc.C64_entropy_ready",
    "Fastroll.Conc.C64_middle_phase",
    "Fastroll.Conc.C64_last_phase",
    "Fastroll.Conc.C64_cold_cache_loses",
    "Fastroll.Conc.C64_raw_cache_loses",
    "Fastroll.Conc.C64_eviction_fails"
   ],
   "note": "PARTIAL: middle and last phases are proved for every schedule (the middle one needs the entropy cached, which C64_entropy_ready shows the first phase always leaves). The first phase at an epoch change is proved when the active set (and with disputes the past set) is cached as parsed entries; otherwise it is false: a clean read that misses the cache overwrites a concurrent write (C64_cold_cache_loses, C64_raw_cache_loses), and an eviction between look-up and change fails the task (C64_eviction_fails). Evictions by other tasks, cancellation after an error and the memory model of the cache's locks are not modelled; each cache operation is one atomic step."
  },
  {
   "property": "C65",
   "status": "partial",
   "theorems": [
    "Fastroll.Host.C65_calls_partial",
    "Fastroll.Host.C65_answer_unique",
    "Fastroll.Host.C65_sandbox_partial",
    "Fastroll.Host.C65_sequences_partial",
    "Fastroll.Host.C65_no_gas",
    "Fastroll.Host.C65_far_empty_range_partial",
    "Fastroll.Host.C65_long_solicit_full",
    "Fastroll.Host.C65_long_solicit_partial",
    "Fastroll.Host.C65_expiry_wraps_partial"
   ],
   "note": "PARTIAL: every host call of accumulation is shown to satisfy a relational transcription of the Gray Paper's appendix B (relation with one rule per outcome, shown deterministic by C65_answer_unique), on plain maps and, through C36, on the sandboxed accounts of the code. Assumed: sound and solvent accounts, counters with room, sums of two balances below 2^64, slot plus expiry below 2^32, a free public identifier, gas below 2^63-1; excluded are empty ranges at addresses of 2^32 or more, solicitations of 2^32 octets or more and blobs of exactly 2^32 octets, where the code departs from the paper (C65_far_empty_range_partial, C65_long_solicit_partial, C65_expiry_wraps_partial). The datum of fetch is a parameter."
  },
  {
   "property": "C66",
   "status": "partial",
   "theorems": [
    "Fastroll.Net.C66_roundtrip",
    "Fastroll.Net.C66_layout_partial",
    "Fastroll.Net.C66_stream",
    "Fastroll.Net.C66_truncated",
    "Fastroll.Net.C66_junk_accepted",
    "Fastroll.Net.C66_pieces",
    "Fastroll.Net.C66_session_partial",
    "Fastroll.Net.C66_isolated",
    "Fastroll.Net.C66_panic"
   ],
   "note": "PARTIAL: the codec round-trips for all messages; the layout is that of the protocol exactly when the texts (peer name, error text) have only octets below 128 (C66_layout_partial: others are written as two octets), and the session theorem assumes this of the answers and that each is shorter than 2^32 octets. The text of an error and the UTF-8 check are parameters, the transition function is that of C63. Octets after a message inside its frame are accepted (C66_junk_accepted); a state count from 2^63/56 on panics the session, which is caught and the target reset (C66_panic). The allocation of the receive buffer, timing and the logging are not modelled."
  },
  {
   "property": "C67",
   "status": "partial",
   "theorems": [
    "Fastroll.Net.C67_kinds",
    "Fastroll.Net.C67_announcements_partial",
    "Fastroll.Net.C67_coalesced",
    "Fastroll.Net.C67_cut",
    "Fastroll.Net.C67_epoch_announcement_long",
    "Fastroll.Net.C67_answer_partial",
    "Fastroll.Net.C67_request_cut",
    "Fastroll.Net.C67_panic_stops",
    "Fastroll.Net.C67_delivery_partial",
    "Fastroll.Net.C67_large_lost",
    "Fastroll.Net.C67_propagation_partial",
    "Fastroll.Net.C67_served",
    "Fastroll.Net.C67_not_served",
    "Fastroll.Net.C67_initiator",
    "Fastroll.Net.C67_later",
    "Fastroll.Net.C67_peers"
   ],
   "note": "PARTIAL: the property holds when every announcement, request and response arrives in one piece of at most 1024 octets (C67_announcements_partial, C67_answer_partial, C67_delivery_partial, C67_propagation_partial), and the violations are proved: coalesced announcements lose all but the first (C67_coalesced), a cut one is passed over (C67_cut), announcements of the first block of an epoch exceed 1024 octets from ten validators on (C67_epoch_announcement_long), a cut request is dropped (C67_request_cut), a block above 1024 octets never arrives (C67_large_lost), an announced block is not served until its state transition ends and an importing node never serves blocks with extrinsics (C67_not_served), one panicking stream ends the service on connections the node opened (C67_panic_stops). QUIC itself, reconnection, the channel to the importer and CE streams other than 128 (which the code does not implement) are not modelled."
  },
  {
   "property": "C68",
   "status": "partial",
   "theorems": [
    "Fastroll.Duty.C68_clock",
    "Fastroll.Duty.C68_clock_wraps",
    "Fastroll.Duty.C68_first_tick_partial",
    "Fastroll.Duty.C68_ticks",
    "Fastroll.Duty.C68_ticks_order",
    "Fastroll.Duty.C68_late",
    "Fastroll.Duty.C68_prediction",
    "Fastroll.Duty.C68_decided",
    "Fastroll.Duty.C68_one_author",
    "Fastroll.Duty.C68_whose_new",
    "Fastroll.Duty.C68_whose",
    "Fastroll.Duty.C68_ticket_mode",
    "Fastroll.Duty.C68_contest_lost",
    "Fastroll.Duty.C68_accepted_iff",
    "Fastroll.Duty.C68_stale_index",
    "Fastroll.Duty.C68_slow",
    "Fastroll.Duty.C68_alone",
    "Fastroll.Duty.C68_accepted_partial",
    "Fastroll.Duty.C68_interrupted",
    "Fastroll.Duty.C68_diverges",
    "Fastroll.Duty.C68_no_rival",
    "Fastroll.Duty.C68_ticket_tasks",
    "Fastroll.Duty.C68_unready"
   ],
   "note": "PARTIAL: the clock wraps after 2^32 slots (C68_clock_wraps); the scheduler never starts if the slot changes between its two clock readings (C68_first_tick_partial); late ticks leave out a slot and handle the next twice (C68_late); in ticket mode every node panics, so a successful contest costs a whole epoch (C68_ticket_mode, C68_ticket_tasks, C68_contest_lost); the author's index is that of the genesis set and its slot is read again, so blocks of a moved validator or a slow node are refused by all others while its own node keeps them (C68_stale_index, C68_slow, C68_alone); a block refused while authoring throws away the author's writes (C68_interrupted, C68_diverges). Proved without restriction: predictions, one author per slot, no second block by a node with another key and the same Safrole state (C68_no_rival), the fallback rule, and the exact condition under which an authored block is accepted. The first phase of a block is connected to the Safrole model by the hypothesis Carries; interleavings are at the phases of the author."
  },
  {
   "property": "C69",
   "status": "partial",
   "theorems": [
    "Fastroll.Stf.C69_provenance",
    "Fastroll.Stf.C69_dependencies_first",
    "Fastroll.Stf.C69_once",
    "Fastroll.Stf.C69_gone",
    "Fastroll.Stf.C69_punished",
    "Fastroll.Stf.C69_no_guarantee",
    "Fastroll.Stf.C69_jury",
    "Fastroll.Stf.C69_new_work",
    "Fastroll.Stf.C69_belt",
    "Fastroll.Stf.C69_depends_header",
    "Fastroll.Stf.C69_depends_body",
    "Fastroll.Stf.C69_shape",
    "Fastroll.Stf.C69_refused",
    "Fastroll.Stf.C69_progress",
    "Fastroll.Stf.C69_slot_partial"
   ],
   "note": "The whole state transition of a block wired from the models of the areas as in the executor, and chains of blocks. Partial only for the order of slots: the transition lets slot 0 repeat, shown by C69_slot_partial. Executing services, preimages and the last accumulation slot are parameters; C69_provenance, C69_dependencies_first, C69_once, C69_gone and C69_shape ask that no block after the genesis is in slot 0, and C69_once and C69_gone that headers are distinct and that a package fixes its anchor."
  },
  {
   "property": "C70",
   "status": "partial",
   "theorems": [
    "Fastroll.Delta.C70_service_pays",
    "Fastroll.Delta.C70_rounds_end",
    "Fastroll.Delta.C70_no_gas_error",
    "Fastroll.Delta.C70_gas_error_partial",
    "Fastroll.Delta.C70_trace",
    "Fastroll.Delta.C70_gas",
    "Fastroll.Delta.C70_authority",
    "Fastroll.Delta.C70_manager",
    "Fastroll.Delta.C70_roles",
    "Fastroll.Delta.C70_tokens_partial"
   ],
   "note": "The pipeline of C15 with the execution of C20/C36 and the merge of C21/C34 in place of C15's parameter: its assumption on services is now C70_service_pays, proved for every program. Broken with always-accumulate services whose gas sums to 2^64 (C70_gas_error_partial). C70_tokens_partial assumes that each service alone conserves tokens (C20, under C36's conditions)."
  },
  {
   "property": "C71",
   "status": "proved",
   "theorems": [
    "Fastroll.Delta.C71_accounts",
    "Fastroll.Delta.C71_bystander",
    "Fastroll.Delta.C71_modest",
    "Fastroll.Delta.C71_history"
   ],
   "note": "All histories and programs under the stated care of the programs; that the care is needed is shown by the theorems of C21 and C36 on ejecting services that run and re-creating identifiers."
  },
  {
   "property": "C72",
   "status": "proved",
   "theorems": [
    "Fastroll.Node.C72_block",
    "Fastroll.Node.C72_accounts_block",
    "Fastroll.Node.C72_accounts",
    "Fastroll.Node.C72_modest",
    "Fastroll.Node.C72_shape",
    "Fastroll.Node.C72_refused",
    "Fastroll.Node.C72_preimages",
    "Fastroll.Node.C72_provenance",
    "Fastroll.Node.C72_once",
    "Fastroll.Node.C72_validators",
    "Fastroll.Node.C72_authorizers"
   ],
   "note": "All chains and programs. C72_accounts asks that the programs are careful as in C71; C72_modest shows this of programs without the calls write, new, eject, solicit and forget. C72_authorizers asks that a hash survives the translation between octets and numbers; C72_provenance and C72_once take over the conditions of C69 (positive slots, distinct headers, packages that fix their anchor). An error while writing back is modelled as a missing entry; C72_accounts_block shows that there is none."
  },
  {
   "property": "C73",
   "status": "partial",
   "theorems": [
    "Fastroll.Abort.C73_host_calls",
    "Fastroll.Abort.C73_service",
    "Fastroll.Abort.C73_causes",
    "Fastroll.Abort.C73_modest",
    "Fastroll.Abort.C73_loader",
    "Fastroll.Abort.C73_broken_code_stops",
    "Fastroll.Abort.C73_gift_aborts",
    "Fastroll.Abort.C73_aborts_partial",
    "Fastroll.Abort.C73_debt_partial",
    "Fastroll.Abort.C73_chain_stops",
    "Fastroll.Abort.C73_always_stops"
   ],
   "note": "PARTIAL: what one would want - that no program can make a block fail - does not hold. C73_causes lists all causes for blocks on consistent accounts whose programs are careful as in C71; C73_modest drops the carefulness for programs without write, new, eject, solicit and forget. C73_aborts_partial and C73_debt_partial exhibit programs that abort a block; C73_chain_stops and C73_always_stops show how broken code stops a chain."
  },
  {
   "property": "C74",
   "status": "proved",
   "theorems": [
    "Fastroll.Node.C74_hashed",
    "Fastroll.Node.C74_slots",
    "Fastroll.Node.C74_modest",
    "Fastroll.Node.C74_guaranteed"
   ],
   "note": "All chains and programs. C74_hashed and C74_slots ask that the programs are careful as in C71; C74_modest shows this of programs without the calls write, new, eject, solicit and forget. C74_guaranteed asks for a gas maximum below 2^64 - 1."
  },
  {
   "property": "C75",
   "status": "partial",
   "theorems": [
    "Fastroll.Pool.C75_log",
    "Fastroll.Pool.C75_bound",
    "Fastroll.Pool.C75_exact",
    "Fastroll.Pool.C75_repeats",
    "Fastroll.Pool.C75_linear",
    "Fastroll.Pool.C75_deadlock",
    "Fastroll.Pool.C75_progress_partial"
   ],
   "note": "PARTIAL: sequential behaviour and linearizability are proved for every history and interleaving; freedom from deadlock is proved only when all calls are of one kind (or the queries took the locks in the order of the additions), because the code can deadlock (C75_deadlock); a repeated addition is listed repeatedly (C75_repeats). Removal is unimplemented in the code."
  },
  {
   "property": "C76",
   "status": "partial",
   "theorems": [
    "Fastroll.Store.C76_store_partial",
    "Fastroll.Store.C76_roots_agree_partial",
    "Fastroll.Store.C76_root_binds_partial",
    "Fastroll.Store.C76_no_silent_loss",
    "Fastroll.Store.C76_actor_death",
    "Fastroll.Store.C76_readd_kills_actor",
    "Fastroll.Store.C76_components_partial",
    "Fastroll.Store.C76_components_bound_partial",
    "Fastroll.Store.C76_typed_reads"
   ],
   "note": "PARTIAL: all histories in which no committed key is removed and added again between two commits, one key always stays, and pre-state reads are of keys that were not just added; the other histories violate the property in the code (C76_readd_kills_actor, C30_*, C32_only_key_cannot_be_removed). Commands of the actor run one at a time (concurrent callers: C64); database errors are left out."
  },
  {
   "property": "C77",
   "status": "partial",
   "theorems": [
    "Fastroll.Readers.C77_commit_reads",
    "Fastroll.Readers.C77_commit_end",
    "Fastroll.Readers.C77_finalize_reads_partial",
    "Fastroll.Readers.C77_finalize_end_partial",
    "Fastroll.Readers.C77_finalize_missing",
    "Fastroll.Readers.C77_finalize_stale"
   ],
   "note": "PARTIAL: commit_dirty_cache is proved for every schedule (C77_commit_reads, C77_commit_end). apply_dirty_cache_commit is proved for keys the block does not touch and for the databases; for the block's own keys the property is false in the code: a read can fail (C77_finalize_missing) and can leave the old value in the cache as clean (C77_finalize_stale). Readers only read; concurrent writers are C64. Database errors are left out."
  },
  {
   "property": "C78",
   "status": "partial",
   "theorems": [
    "Fastroll.Announce.C78_announced",
    "Fastroll.Announce.C78_committed_announced",
    "Fastroll.Announce.C78_no_failure",
    "Fastroll.Announce.C78_completes",
    "Fastroll.Announce.C78_lost_peer_partial",
    "Fastroll.Announce.C78_off_chain_partial",
    "Fastroll.Announce.C78_one_loss_partial",
    "Fastroll.Announce.C78_stays_off_partial",
    "Fastroll.Announce.C78_stall_partial",
    "Fastroll.Announce.C78_one_chain"
   ],
   "note": "PARTIAL. Proved: exact accounting of announcements for every peer whose stream stays up; no failures without lost streams; an announcement with room goes through; in every history the stored headers stay one chain that ends in the best header (C78_one_chain). The property fails in the code when a stream breaks or a peer does not read: C78_lost_peer_partial, C78_off_chain_partial, C78_one_loss_partial, C78_stays_off_partial and C78_stall_partial prove the faults for all continuations (finding 63). Not modelled: QUIC itself, peers added after start-up, the order of the table within a shard."
  },
  {
   "property": "C79",
   "status": "partial",
   "theorems": [
    "Fastroll.Dial.C79_ready",
    "Fastroll.Dial.C79_both_sides",
    "Fastroll.Dial.C79_sound",
    "Fastroll.Dial.C79_once",
    "Fastroll.Dial.C79_late_call",
    "Fastroll.Dial.C79_no_timeout",
    "Fastroll.Dial.C79_last",
    "Fastroll.Dial.C79_gives_up_partial",
    "Fastroll.Dial.C79_sequential",
    "Fastroll.Dial.C79_split_partial",
    "Fastroll.Dial.C79_any_three_partial",
    "Fastroll.Dial.C79_handle",
    "Fastroll.Dial.C79_sent",
    "Fastroll.Dial.C79_gap_partial"
   ],
   "note": "PARTIAL. Proved for all networks and interleavings: what a finished start gives, agreement of the two tables, calls made once and between running nodes only, full network without time-outs, the exact outcome of sequential starts, and that crossing connections leave a usable stream handle. The property fails in the code when a call of the first round fails: C79_gives_up_partial, C79_split_partial and C79_any_three_partial prove it for all continuations; blocks announced while a second connection is set up pass the peer over (C79_gap_partial). Not modelled: connections that break, unreliable networks, the address table (C67)."
  },
  {
   "property": "C80",
   "status": "partial",
   "theorems": [
    "Fastroll.Restart.C80_first_start",
    "Fastroll.Restart.C80_durable_partial",
    "Fastroll.Restart.C80_root_lost_partial",
    "Fastroll.Restart.C80_second_start_partial",
    "Fastroll.Restart.C80_one_life_partial",
    "Fastroll.Chain.C80_follows",
    "Fastroll.Chain.C80_stuck_partial",
    "Fastroll.Chain.C80_catches_up"
   ],
   "note": "PARTIAL: the code violates the last two parts. Proved: the first start on empty databases (C80_first_start), that everything committed survives a restart and the first commit restores the root (C80_durable_partial; missing: the root itself is not on disk, C80_root_lost_partial), that a chain delivered in order is followed (C80_follows) and that rejected blocks do no lasting harm (C80_catches_up). Negations: a node never starts a second time on its databases (C80_second_start_partial for any contents, C80_one_life_partial for any history and number of attempts), and a node that has missed one block accepts no other block of the chain until it is given that one, which nothing asks for (C80_stuck_partial)."
  },
  {
   "property": "C81",
   "status": "partial",
   "theorems": [
    "Fastroll.HexText.C81_round_trip",
    "Fastroll.HexText.C81_exact",
    "Fastroll.HexText.C81_number",
    "Fastroll.HexText.C81_unique",
    "Fastroll.HexText.C81_written",
    "Fastroll.HexText.C81_readers_partial"
   ],
   "note": "PARTIAL: the last part fails in the code. Proved for all texts: round trips between all writers and readers (C81_round_trip), exact acceptance (C81_exact), from_hex as a number (C81_number), uniqueness up to case and prefix (C81_unique), the written form (C81_written). C81_readers_partial: from_hex agrees with the JSON reader wherever that accepts, but also accepts every shorter row of digits, down to the empty text, and pads with zeros, where the JSON reader reports an error (finding 67). The hex crate is modelled from its documented behaviour, serde_json (quoting, escapes) is not modelled."
  }
 ]
}