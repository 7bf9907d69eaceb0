{
 "claims": [
  {
   "property": "C01",
   "status": "proved",
   "theorems": [
    "Verif.Bitset.C01_history",
    "Verif.Bitset.C01_unboundedTest",
    "Verif.Bitset.C01_history_independent",
    "Verif.Bitset.C01_reachable_all",
    "Verif.Bitset.C01_reachable_shows"
   ],
   "note": "Refinement of every operation history (constructors, mutators, operators with aliasing, proxies, appends, stream writes) to List Bool; plus history independence and reachability of every sequence."
  },
  {
   "property": "C02",
   "status": "proved",
   "theorems": [
    "Verif.Bitset.C02_count",
    "Verif.Bitset.C02_tests",
    "Verif.Bitset.C02_blockCount",
    "Verif.Bitset.C02_getBlock",
    "Verif.Bitset.C02_intersects"
   ],
   "note": "Full."
  },
  {
   "property": "C03",
   "status": "proved",
   "theorems": [
    "Verif.Bitset.C03_equals",
    "Verif.Bitset.C03_notEquals",
    "Verif.Bitset.C03_equivalence"
   ],
   "note": "Full, with the equivalence laws."
  },
  {
   "property": "C04",
   "status": "proved",
   "theorems": [
    "Verif.Bitset.C04_findFirst",
    "Verif.Bitset.C04_findNext",
    "Verif.Bitset.C04_iterBits"
   ],
   "note": "Full for 8, 16, 32 and 64-bit blocks (widths of FindFirstBit)."
  },
  {
   "property": "C05",
   "status": "proved",
   "theorems": [
    "Verif.Bitset.C05_ofString",
    "Verif.Bitset.C05_toString",
    "Verif.Bitset.C05_string_roundtrip",
    "Verif.Bitset.C05_bitset_roundtrip"
   ],
   "note": "Both round trips and the meaning of each character; other characters fail an assertion (C11_string)."
  },
  {
   "property": "C06",
   "status": "partial",
   "theorems": [
    "Verif.Bitset.C06_signed_violated",
    "Verif.Bitset.C06_signed_partial",
    "Verif.Bitset.C06_toInt",
    "Verif.Bitset.C06_toInt_assert",
    "Verif.Bitset.C06_ofInt",
    "Verif.Bitset.C06_roundtrip"
   ],
   "note": "Full for unsigned integers; negative narrow signed integers are always sign-extended past the size (violated theorem)."
  },
  {
   "property": "C07",
   "status": "partial",
   "theorems": [
    "Verif.Bitset.C07_appendBits_partial",
    "Verif.Bitset.C07_appendBits_exact",
    "Verif.Bitset.C07_stray_bits_violated",
    "Verif.Bitset.C07_shift_ub_violated"
   ],
   "note": "Exact concatenation under AppendAllowed. Outside it: with stray bits in the value, Size/Test still show the concatenation and Count is too large by exactly the stray bits (exact theorem); undefined for every append that fills a new 32/64-bit block. Unsigned types; signed ones: C139."
  },
  {
   "property": "C08",
   "status": "partial",
   "theorems": [
    "Verif.Bitset.C08_write_partial",
    "Verif.Bitset.C08_write_split_partial",
    "Verif.Bitset.C08_fromPointer_partial",
    "Verif.Bitset.C08_zero_bits_violated",
    "Verif.Bitset.C08_reads",
    "Verif.Bitset.C08_reads_only",
    "Verif.Bitset.C08_zero_reads_violated",
    "Verif.Bitset.C08_write_exact",
    "Verif.Bitset.C08_stray_bits_violated"
   ],
   "note": "Write, split of Write and FromPointer under WriteAllowed. Outside it: Size/Test and the position are right and Count is too large by exactly the stray bits of the last byte (exact theorem); 0 bits skip a byte, and a byte is read for them whose bits may get into the last block (violated theorems). C08_reads and C08_reads_only: exactly the bytes in which the bits lie are read."
  },
  {
   "property": "C09",
   "status": "partial",
   "theorems": [
    "Verif.Bitset.C09_one_block_partial",
    "Verif.Bitset.C09_complete_partial",
    "Verif.Bitset.C09_block_counts_violated",
    "Verif.Bitset.C09_less_exact",
    "Verif.Bitset.C09_others_exact",
    "Verif.Bitset.C09_agreeing_partial",
    "Verif.Bitset.C09_two_blocks_violated"
   ],
   "note": "Full for bitsets with equal numbers of blocks that do not disagree (no block is smaller while another one is larger: C09_agreeing_partial; single blocks: C09_one_block_partial); this condition is exact: otherwise both a < b and b < a (C09_two_blocks_violated). No false negatives for equal block counts; what each operator computes (C09_less_exact, C09_others_exact); assertion for different block counts (violated)."
  },
  {
   "property": "C10",
   "status": "proved",
   "theorems": [
    "Verif.Bitset.C10_xor_self",
    "Verif.Bitset.C10_not_not",
    "Verif.Bitset.C10_flip",
    "Verif.Bitset.C10_idempotent",
    "Verif.Bitset.C10_shiftLeft",
    "Verif.Bitset.C10_shiftRight",
    "Verif.Bitset.C10_reverse_reverse",
    "Verif.Bitset.C10_reverse_shift",
    "Verif.Bitset.C10_compound_self",
    "Verif.Bitset.C10_compound",
    "Verif.Bitset.C10_performs",
    "Verif.Bitset.C10_commutative",
    "Verif.Bitset.C10_deMorgan",
    "Verif.Bitset.C10_associative",
    "Verif.Bitset.C10_deMorgan_sizes"
   ],
   "note": "All laws as equality of results, plus reverse/shift duality; De Morgan for different sizes fails and is shown."
  },
  {
   "property": "C11",
   "status": "proved",
   "theorems": [
    "Verif.Bitset.C11_bit_access",
    "Verif.Bitset.C11_block_access",
    "Verif.Bitset.C11_findNext",
    "Verif.Bitset.C11_string",
    "Verif.Bitset.C11_proxy_unchecked"
   ],
   "note": "In range: succeeds; out of range: assertion.  The proxy operator[] has no assertion (C11_proxy_unchecked)."
  },
  {
   "property": "C12",
   "status": "proved",
   "theorems": [
    "Verif.Bitset.C12_proxy",
    "Verif.Bitset.C12_proxy_assign_bit",
    "Verif.Bitset.C12_proxy_test"
   ],
   "note": "Full."
  },
  {
   "property": "C13",
   "status": "partial",
   "theorems": [
    "Verif.MathUtils.C13_countBits",
    "Verif.MathUtils.C13_countBits_runtime_partial",
    "Verif.MathUtils.C13_findFirstBit",
    "Verif.MathUtils.C13_findFirstBit_runtime",
    "Verif.MathUtils.C13_findLastBit",
    "Verif.MathUtils.C13_findLastBit_runtime_partial",
    "Verif.MathUtils.C13_countBits_signed_violated",
    "Verif.MathUtils.C13_findLastBit_signed_violated",
    "Verif.MathUtils.C13_signed_nonneg"
   ],
   "note": "CountBits/FindFirstBit/FindLastBit for every width. The run-time builtin path sign-extends negative narrow values; CountBits and FindLastBit are wrong for every such value, by exactly the width difference (violated theorems), and right for the others. The compile-time path of CountBits on signed types: C137."
  },
  {
   "property": "C14",
   "status": "proved",
   "theorems": [
    "Verif.MathUtils.C14_reverseBits",
    "Verif.MathUtils.C14_reverseBits_involutive"
   ],
   "note": "Full statement and involution."
  },
  {
   "property": "C15",
   "status": "proved",
   "theorems": [
    "Verif.MathUtils.C15_swapBytes",
    "Verif.MathUtils.C15_swapBytes_zero_ub",
    "Verif.MathUtils.C15_byteSwap",
    "Verif.MathUtils.C15_byteSwap_involutive",
    "Verif.MathUtils.C15_byteSwap_swapBytes"
   ],
   "note": "SwapBytes for every buffer and size >= 1 (size 0 is undefined behaviour, shown); ByteSwap for 2, 4 and 8 bytes."
  },
  {
   "property": "C16",
   "status": "proved",
   "theorems": [
    "Verif.Endianness.C16_memory",
    "Verif.Endianness.C16_roundtrip"
   ],
   "note": "All four conversions on both kinds of host."
  },
  {
   "property": "C17",
   "status": "partial",
   "theorems": [
    "Verif.MathUtils.C17_integralLog2Pot",
    "Verif.MathUtils.C17_integralLog2_partial",
    "Verif.MathUtils.C17_integralLog2_violated"
   ],
   "note": "IntegralLog2 for 32-bit and narrower types and for the 64-bit values whose upper word is not 1; the 64-bit word loop returns a wrong value otherwise (violated theorem). IntegralLog2Pot is full."
  },
  {
   "property": "C18",
   "status": "partial",
   "theorems": [
    "Verif.MathUtils.C18_integralPow_partial",
    "Verif.MathUtils.C18_integralPow_signed",
    "Verif.MathUtils.C18_integralPow_violated"
   ],
   "note": "Unsigned types of 32 bits and more, and signed types, full; narrow unsigned types: exact condition for undefined behaviour, right result otherwise."
  },
  {
   "property": "C19",
   "status": "partial",
   "theorems": [
    "Verif.MathUtils.C19_isPow2",
    "Verif.MathUtils.C19_isPow2_zero",
    "Verif.MathUtils.C19_roundToPow2",
    "Verif.MathUtils.C19_getNearestPowerOfTwo_partial",
    "Verif.MathUtils.C19_getNearestPowerOfTwo_violated"
   ],
   "note": "IsPow2 and RoundToPow2 full; GetNearestPowerOfTwo diverges above the greatest power of two of the type (proved for all such values). Unsigned types; signed ones: C137."
  },
  {
   "property": "C20",
   "status": "partial",
   "theorems": [
    "Verif.MathUtils.C20_align_partial",
    "Verif.MathUtils.C20_nextMultiple_exists",
    "Verif.MathUtils.C20_alignPow2",
    "Verif.MathUtils.C20_alignPow2_eq_align",
    "Verif.MathUtils.C20_align_signed_partial",
    "Verif.MathUtils.C20_align_violated",
    "Verif.MathUtils.C20_align_signed_violated",
    "Verif.MathUtils.C20_align_overflow_violated"
   ],
   "note": "Align when the intermediate sum does not wrap, and 0 whenever it does; AlignPow2 full on unsigned types (signed ones: C137); signed Align for offsets above -alignment, and the exact wrong result below; undefined behaviour when offset + alignment leaves the type."
  },
  {
   "property": "C21",
   "status": "partial",
   "theorems": [
    "Verif.MathUtils.C21_clamp",
    "Verif.MathUtils.C21_approach_partial",
    "Verif.MathUtils.C21_approach_bounds",
    "Verif.MathUtils.C21_approach_reaches",
    "Verif.MathUtils.C21_approach_reaches_partial",
    "Verif.MathUtils.C21_approach_signed_partial",
    "Verif.MathUtils.C21_approach_violated",
    "Verif.MathUtils.C21_approach_signed_violated"
   ],
   "note": "Clamp full over any linear order; Approach when the step stays in the range of the type, and what it does whenever it leaves it."
  },
  {
   "property": "C22",
   "status": "partial",
   "theorems": [
    "Verif.MathUtils.C22_numberEquals",
    "Verif.MathUtils.C22_numberEquals_signed_partial",
    "Verif.MathUtils.C22_numberEquals_narrow_partial",
    "Verif.MathUtils.C22_numberEquals_signed_violated"
   ],
   "note": "Unsigned and >= 32-bit signed full (non-negative tolerance); narrow signed types for numbers of the same sign; numbers of opposite signs always compare equal (violated theorem)."
  },
  {
   "property": "C23",
   "status": "proved",
   "theorems": [
    "Verif.MathUtils.C23_single_bit",
    "Verif.MathUtils.C23_single_bit_assert"
   ],
   "note": "Full, with the assertion on indices out of range."
  },
  {
   "property": "C24",
   "status": "partial",
   "theorems": [
    "Verif.MathUtils.C24_arithmeticRightShift",
    "Verif.MathUtils.C24_arithmeticRightShift_logical_partial",
    "Verif.MathUtils.C24_arithmeticRightShift_wide_violated",
    "Verif.MathUtils.C24_arithmeticRightShift_violated"
   ],
   "note": "C24_arithmeticRightShift_wide_violated: shifts by the number of bits of the promoted type or more are undefined; C++20 path and C++17 path on arithmetic-shift compilers full; logical-shift compilers: exactly when the result is right."
  },
  {
   "property": "C25",
   "status": "proved",
   "theorems": [
    "Verif.FixedVector.C25_history",
    "Verif.FixedVector.C25_reachable",
    "Verif.FixedVector.C25_constructors",
    "Verif.FixedVector.C25_out_of_range"
   ],
   "note": "Every allowed history (with and without fallback, every capacity), constructors, and assertions out of range; also from every vector reachable through copies and moves."
  },
  {
   "property": "C26",
   "status": "proved",
   "theorems": [
    "Verif.FixedVector.C26_lifetimes",
    "Verif.FixedVector.C26_reachable"
   ],
   "note": "Lifetime errors are failures of the model, so absence of failure is absence of lifetime errors; living objects counted; destructor leaves none."
  },
  {
   "property": "C27",
   "status": "partial",
   "theorems": [
    "Verif.FixedVector.C27_copyConstruct",
    "Verif.FixedVector.C27_copyAssign_partial",
    "Verif.FixedVector.C27_moveConstruct",
    "Verif.FixedVector.C27_moveAssign_partial",
    "Verif.FixedVector.C27_moved_from",
    "Verif.FixedVector.C27_leak_violated",
    "Verif.FixedVector.C27_self_partial",
    "Verif.FixedVector.C27_self_violated"
   ],
   "note": "Constructors full; assignments except fallback source onto a non-empty inline target, which leaks every element of the target (violated theorem, for all such pairs); self-assignment of an inline vector loses all elements (violated). Self-move of a vector using its fallback is a self-move of std::vector (unspecified) and not covered."
  },
  {
   "property": "C28",
   "status": "partial",
   "theorems": [
    "Verif.FixedVector.C28_fallback_partial",
    "Verif.FixedVector.C28_resize",
    "Verif.FixedVector.C28_resize_leak_violated",
    "Verif.FixedVector.C28_inline_violated"
   ],
   "note": "resize and everything that ends in the fallback; emplace_back, push_back, emplace on the inline storage leave a raw slot counted in the size, destructor undefined (violated theorem, for all such calls). Moves that throw: C115; constructors: C116."
  },
  {
   "property": "C29",
   "status": "proved",
   "theorems": [
    "Verif.StackVector.C29_history",
    "Verif.StackVector.C29_lifetimes",
    "Verif.StackVector.C29_out_of_range"
   ],
   "note": "Every allowed history of every capacity refines lists; lifetimes and assertions out of range."
  },
  {
   "property": "C30",
   "status": "partial",
   "theorems": [
    "Verif.StackVector.C30_target",
    "Verif.StackVector.C30_moveConstruct_partial",
    "Verif.StackVector.C30_moveConstruct_violated",
    "Verif.StackVector.C30_moveAssign_partial",
    "Verif.StackVector.C30_moveAssign_violated"
   ],
   "note": "Target always right; source and target destructible for move construction of at most one element and move assignment of equal sizes; all other cases are undefined or leak (violated theorems, for all such pairs)."
  },
  {
   "property": "C31",
   "status": "proved",
   "theorems": [
    "Verif.StackVector.C31_stackArray",
    "Verif.StackVector.C31_noInit"
   ],
   "note": "Full, including the NoInit constructor."
  },
  {
   "property": "C32",
   "status": "proved",
   "theorems": [
    "Verif.MemoryPool.C32_history",
    "Verif.MemoryPool.C32_allocate",
    "Verif.MemoryPool.C32_free",
    "Verif.MemoryPool.C32_not_in_use"
   ],
   "note": "Every allowed history of every block size >= 1, with indices, addresses, contents and lifetimes; Clear on blocks of one entry is excluded (C36)."
  },
  {
   "property": "C33",
   "status": "proved",
   "theorems": [
    "Verif.MemoryPool.C33_allocate",
    "Verif.MemoryPool.C33_free",
    "Verif.MemoryPool.C33_counters"
   ],
   "note": "Full."
  },
  {
   "property": "C34",
   "status": "proved",
   "theorems": [
    "Verif.MemoryPool.C34_iterate",
    "Verif.MemoryPool.C34_free_while_iterating"
   ],
   "note": "Full; also for a loop that frees entries while it visits them."
  },
  {
   "property": "C35",
   "status": "partial",
   "theorems": [
    "Verif.MemoryPool.C35_inverse_partial",
    "Verif.MemoryPool.C35_outside",
    "Verif.MemoryPool.C35_injective",
    "Verif.MemoryPool.C35_alignment_violated"
   ],
   "note": "Inverse if sizeof(T) is the distance of the entries; with a larger Alignment no index but the first of a block is found (violated theorem, for all such entries)."
  },
  {
   "property": "C36",
   "status": "partial",
   "theorems": [
    "Verif.MemoryPool.C36_destructor_partial",
    "Verif.MemoryPool.C36_all_freed",
    "Verif.MemoryPool.C36_block_of_one_violated"
   ],
   "note": "Blocks of at least two entries, all entries in use holding objects; with blocks of one entry destruction, Clear and Reset of a pool with objects fail an assertion (violated theorem)."
  },
  {
   "property": "C37",
   "status": "partial",
   "theorems": [
    "Verif.MemoryPool.C37_reset_partial",
    "Verif.MemoryPool.C37_reset_empty",
    "Verif.MemoryPool.C37_reuse_violated"
   ],
   "note": "State right after Reset; reuse fails for every pool that had an object (violated theorem): Bitset::Reset(true) is Reset(bit 1)."
  },
  {
   "property": "C38",
   "status": "proved",
   "theorems": [
    "Verif.Signal.C38_emit",
    "Verif.Signal.C38_calls_defined"
   ],
   "note": "After every allowed history (creations, destructions, connections, disconnections, clears, moves, emissions with arbitrary callbacks); order of the calls left open, as in the code. Every allowed call has an ordinary outcome."
  },
  {
   "property": "C39",
   "status": "proved",
   "theorems": [
    "Verif.Signal.C39_safe",
    "Verif.Signal.C39_not_called_after",
    "Verif.Signal.C39_disconnecting"
   ],
   "note": "Callbacks are arbitrary functions of the history; disconnecting callbacks: termination, once each. For arbitrary callbacks (also connecting, clearing, emitting): only connected slots are called and never after their disconnection."
  },
  {
   "property": "C40",
   "status": "proved",
   "theorems": [
    "Verif.Signal.C40_isConnected",
    "Verif.Signal.C40_one_signal",
    "Verif.Signal.C40_disconnect",
    "Verif.Signal.C40_connect",
    "Verif.Signal.C40_clear",
    "Verif.Signal.C40_destroy"
   ],
   "note": "Full."
  },
  {
   "property": "C41",
   "status": "proved",
   "theorems": [
    "Verif.Signal.C41_destroy",
    "Verif.Signal.C41_connect",
    "Verif.Signal.C41_assign",
    "Verif.Signal.C41_moveAssign",
    "Verif.Signal.C41_moveConstruct",
    "Verif.Signal.C41_stays_disconnected"
   ],
   "note": "Full, for guards on any slot of any history; the guard assignment from a Connection&& does not compile when used (compares pointers of different types) and is not modelled."
  },
  {
   "property": "C42",
   "status": "partial",
   "theorems": [
    "Verif.Signal.C42_connecting_partial",
    "Verif.Signal.C42_skips_violated",
    "Verif.Signal.C42_called_now_violated",
    "Verif.Signal.C42_diverges_violated"
   ],
   "note": "If every callback connects before it disconnects and the emission ends, no connected slot is missed. Violated otherwise: a callback that disconnects its own slot and then connects makes the emission skip all others (for all signals with two slots); slots connected during the emission are called in it; emission runs forever if each callback connects."
  },
  {
   "property": "C43",
   "status": "partial",
   "theorems": [
    "Verif.Signal.C43_moveConstruct_partial",
    "Verif.Signal.C43_moveAssign_partial",
    "Verif.Signal.C43_source_violated",
    "Verif.Signal.C43_self_violated",
    "Verif.Signal.C43_target_violated",
    "Verif.Signal.C43_copied_violated"
   ],
   "note": "Target right and source empty if the source has had two slots at once; for a source with one slot that never had two, its next emission is undefined; target with an inline slot and source with fallback: old connection still counts as connected and disconnects a wrong slot; target with fallback and source with an inline slot: the slot is copied, both signals call it and it cannot be disconnected from the source; self-move loses the slot (violated theorems, for all such pairs)."
  },
  {
   "property": "C44",
   "status": "partial",
   "theorems": [
    "Verif.Flags.C44_history_partial",
    "Verif.Flags.C44_history",
    "Verif.Flags.C44_observers",
    "Verif.Flags.C44_test_partial",
    "Verif.Flags.C44_toInteger",
    "Verif.Flags.C44_large_violated",
    "Verif.Flags.C44_mask_violated",
    "Verif.Flags.C44_complement_violated"
   ],
   "note": "Refinement to Finset (Fin n) for all programs; full for automatic enumerations of at most 32 enumerators (C44_history). Violated: automatic enumerators from 32 (1U << value), ~ and ^ when the maximum is 63 or more, ~ of every non-automatic enumeration (violated theorems, for all such cases)."
  },
  {
   "property": "C45",
   "status": "partial",
   "theorems": [
    "Verif.Flags.C45_range_partial",
    "Verif.Flags.C45_range_any",
    "Verif.Flags.C45_large_violated",
    "Verif.Flags.C45_postfix",
    "Verif.Flags.C45_end_assert"
   ],
   "note": "Full for automatic enumerations and for non-automatic ones of at most 32 enumerators; beyond, dereferencing is undefined (violated theorem)."
  },
  {
   "property": "C46",
   "status": "partial",
   "theorems": [
    "Verif.SparsePtr.C46_affine_partial",
    "Verif.SparsePtr.C46_compose_partial",
    "Verif.SparsePtr.C46_history_partial",
    "Verif.SparsePtr.C46_values",
    "Verif.SparsePtr.C46_postfix",
    "Verif.SparsePtr.C46_diff",
    "Verif.SparsePtr.C46_diff_flat",
    "Verif.SparsePtr.C46_compare",
    "Verif.SparsePtr.C46_setters",
    "Verif.SparsePtr.C46_construct",
    "Verif.SparsePtr.C46_flat_size_t",
    "Verif.SparsePtr.C46_unsigned_violated",
    "Verif.SparsePtr.C46_size_t_violated",
    "Verif.SparsePtr.C46_int_overflow_violated",
    "Verif.SparsePtr.C46_unsigned_overflow_violated",
    "Verif.SparsePtr.C46_zero_stride_ub"
   ],
   "note": "Affine for both signs of the stride when the byte offset fits the type it is computed in; difference and comparisons full. Violated (for all such pointers): unsigned int and size_t indices with negative strides, int and unsigned int offsets of 2 GiB and more."
  },
  {
   "property": "C47",
   "status": "proved",
   "theorems": [
    "Verif.Hash.C47_buffer",
    "Verif.Hash.C47_view",
    "Verif.Hash.C47_cstr",
    "Verif.Hash.C47_polynomial"
   ],
   "note": "Full: bit by bit (all overloads) and as remainder of polynomials over GF(2)."
  },
  {
   "property": "C48",
   "status": "proved",
   "theorems": [
    "Verif.Hash.C48_crc32",
    "Verif.Hash.C48_fnv",
    "Verif.Hash.C48_concat",
    "Verif.Hash.C48_fnv_value"
   ],
   "note": "Full; resumption of hashing after a first part; FNV1a is the textbook function on all buffers."
  },
  {
   "property": "C49",
   "status": "partial",
   "theorems": [
    "Verif.Hash.C49_crc32",
    "Verif.Hash.C49_fnv_partial",
    "Verif.Hash.C49_fnv_violated",
    "Verif.Hash.C49_array_partial",
    "Verif.Hash.C49_unterminated_ub"
   ],
   "note": "CRC32 full. FNV1a: where char is unsigned or all bytes are below 0x80; violated for every input with one byte from 0x80 where char is signed. Array overloads hash the terminating null."
  },
  {
   "property": "C50",
   "status": "partial",
   "theorems": [
    "Verif.Hash.C50_bijective",
    "Verif.Hash.C50_last",
    "Verif.Hash.C50_size32_violated"
   ],
   "note": "Full for a std::size_t of 64 bits (C50_size32_violated: not with 32 bits); variadic form injective in the last element if std::hash<std::size_t> is injective."
  },
  {
   "property": "C51",
   "status": "partial",
   "theorems": [
    "Verif.Result.C51_observers",
    "Verif.Result.C51_void_observers",
    "Verif.Result.C51_construct",
    "Verif.Result.C51_convert",
    "Verif.Result.C51_void_convert",
    "Verif.Result.C51_getValueOr",
    "Verif.Result.C51_map",
    "Verif.Result.C51_mapMove",
    "Verif.Result.C51_map_void",
    "Verif.Result.C51_mapMove_void",
    "Verif.Result.C51_map_laws",
    "Verif.Result.C51_map_throw",
    "Verif.Result.C51_map_terminate_violated",
    "Verif.Result.C51_history_partial",
    "Verif.Result.C51_history",
    "Verif.Result.C51_valueless_violated",
    "Verif.Result.C51_try",
    "Verif.Result.C51_try_void"
   ],
   "note": "All programs over any number of results; full if copies and moves do not throw. Kept for throwing copies if moves are noexcept; otherwise an assignment can leave a result that is neither (violated theorem), and Map ends the program if the copy of an error throws (violated theorem)."
  },
  {
   "property": "C52",
   "status": "proved",
   "theorems": [
    "Verif.Movable.C52_ptr",
    "Verif.Movable.C52_literal",
    "Verif.Movable.C52_ptr_owned_once",
    "Verif.Movable.C52_literal_owned_once",
    "Verif.Movable.C52_value"
   ],
   "note": "Full, for all sequences of moves and copies over any number of wrappers."
  },
  {
   "property": "C53",
   "status": "partial",
   "theorems": [
    "Verif.CallOnExit.C53_once_partial",
    "Verif.CallOnExit.C53_move_violated",
    "Verif.CallOnExit.C53_move_replaced",
    "Verif.CallOnExit.C53_throw_violated",
    "Verif.CallOnExit.C53_destructor_terminates",
    "Verif.CallOnExit.C53_terminates_iff"
   ],
   "note": "All histories without move assignment and with functors that do not throw; both violated otherwise (theorems). Functors that use other guards or their own: C105."
  },
  {
   "property": "C54",
   "status": "partial",
   "theorems": [
    "Verif.PrivateImpl.C54_heap_history_partial",
    "Verif.PrivateImpl.C54_heap_all_destroyed",
    "Verif.PrivateImpl.C54_copy_independent",
    "Verif.PrivateImpl.C54_copy_empty_violated",
    "Verif.PrivateImpl.C54_self_assign_violated",
    "Verif.PrivateImpl.C54_emplace_reported",
    "Verif.PrivateImpl.C54_copy_throw_violated",
    "Verif.PrivateImpl.C54_inline_history_partial",
    "Verif.PrivateImpl.C54_inline_self_violated",
    "Verif.PrivateImpl.C54_inline_throw_violated"
   ],
   "note": "Both storage forms, all histories, with exceptions. Excluded and refuted: copies from empty objects, self-assignment and throwing copies for types without copy assignment or with inline storage."
  },
  {
   "property": "C55",
   "status": "partial",
   "theorems": [
    "Verif.TypeList.C55_find",
    "Verif.TypeList.C55_at",
    "Verif.TypeList.C55_build",
    "Verif.TypeList.C55_remove",
    "Verif.TypeList.C55_unique",
    "Verif.TypeList.C55_unique_nodup",
    "Verif.TypeList.C55_apply_partial",
    "Verif.TypeList.C55_apply_violated"
   ],
   "note": "Lists of any length. TypeListApply with an rvalue argument forwards it to every functor (violated theorem); partial for lvalues."
  },
  {
   "property": "C56",
   "status": "partial",
   "theorems": [
    "Verif.EnumArray.C56_size",
    "Verif.EnumArray.C56_map",
    "Verif.EnumArray.C56_ext",
    "Verif.EnumArray.C56_negative_violated",
    "Verif.EnumArray.C56_iterator",
    "Verif.EnumArray.C56_compare",
    "Verif.EnumArray.C56_visit",
    "Verif.EnumArray.C56_update"
   ],
   "note": "Enumerations of every underlying type with Count or Max, values from 0. Enumerators below 0 have no element (violated theorem). operator+ and operator- of the iterators do not compile when used and are not modelled."
  },
  {
   "property": "C57",
   "status": "partial",
   "theorems": [
    "Verif.SafeCast.C57_rvalue_partial",
    "Verif.SafeCast.C57_fromEnum_partial",
    "Verif.SafeCast.C57_representable",
    "Verif.SafeCast.C57_narrow_violated",
    "Verif.SafeCast.C57_lvalue_violated",
    "Verif.SafeCast.C57_bool_violated"
   ],
   "note": "Rvalues, except signed values too large for a narrower or equal unsigned type; violated for all of those, for all lvalues, and for conversions to bool (theorems). Representable values are kept in all cases."
  },
  {
   "property": "C58",
   "status": "partial",
   "theorems": [
    "Verif.TypeName.C58_gcc_partial",
    "Verif.TypeName.C58_gcc_violated",
    "Verif.TypeName.C58_clang_partial",
    "Verif.TypeName.C58_clang_violated",
    "Verif.TypeName.C58_msvc_partial",
    "Verif.TypeName.C58_msvc_violated"
   ],
   "note": "GCC up to 48 characters, Clang up to 33, MSVC up to 57; violated for every longer spelling (theorems). The form of the signature is that of the compilers, written down in the model."
  },
  {
   "property": "C59",
   "status": "partial",
   "theorems": [
    "Verif.Bitset.C59_postIncrement_violated",
    "Verif.Bitset.C59_preIncrement_partial"
   ],
   "note": "it++ never moves the iterator: refuted for every bitset and position."
  },
  {
   "property": "C60",
   "status": "partial",
   "theorems": [
    "Verif.Bitset.C60_move_partial",
    "Verif.Bitset.C60_moved_from_violated"
   ],
   "note": "Refuted for every non-empty bitset; Clear/assignment/Resize(0) repair."
  },
  {
   "property": "C61",
   "status": "proved",
   "theorems": [
    "Verif.Bitset.C61_capacity"
   ],
   "note": "Full for blocks of 8 bits or more."
  },
  {
   "property": "C62",
   "status": "partial",
   "theorems": [
    "Verif.FixedVector.C62_alias_partial",
    "Verif.FixedVector.C62_growth_violated",
    "Verif.FixedVector.C62_emplace_violated"
   ],
   "note": "Correct while the inline storage has room and (emplace) for elements before the position; undefined on growth to the fallback and at the position, wrong value after the position (violated theorems, for all such calls)."
  },
  {
   "property": "C63",
   "status": "partial",
   "theorems": [
    "Verif.StackVector.C63_moveConstruct_partial",
    "Verif.StackVector.C63_moveAssign_partial",
    "Verif.StackVector.C63_moves_violated"
   ],
   "note": "As C30: the defaulted moves keep m_size in the source."
  },
  {
   "property": "C64",
   "status": "partial",
   "theorems": [
    "Verif.StackVector.C64_vector_violated",
    "Verif.StackVector.C64_resize_partial",
    "Verif.StackVector.C64_array_violated"
   ],
   "note": "resize keeps the former contents but loses the elements already constructed; emplace_back, push_back, emplace count the raw slot (violated for all calls); StackArray leaks the constructed elements (violated for all sizes)."
  },
  {
   "property": "C65",
   "status": "partial",
   "theorems": [
    "Verif.MemoryPool.C65_throw_violated",
    "Verif.MemoryPool.C65_repair_partial"
   ],
   "note": "Entry stays allocated, destructor undefined (violated theorem, for all pools); the caller can repair with Free(index, NoDestruction)."
  },
  {
   "property": "C66",
   "status": "partial",
   "theorems": [
    "Verif.MemoryPool.C66_moveConstruct",
    "Verif.MemoryPool.C66_moveAssign_violated",
    "Verif.MemoryPool.C66_moveAssign_partial"
   ],
   "note": "Move construction full; move assignment never destroys the objects of the target (violated theorem)."
  },
  {
   "property": "C67",
   "status": "partial",
   "theorems": [
    "Verif.Signal.C67_recursive_violated",
    "Verif.Signal.C67_single_partial"
   ],
   "note": "Refuted for every signal with at least two slots: the inner emission leaves the shared iterator at the end, so the outer emission stops. Proved, for all nestings of all callbacks that only emit, when each signal that may be emitted again during its own emission has at most one slot."
  },
  {
   "property": "C68",
   "status": "partial",
   "theorems": [
    "Verif.SparsePtr.C68_order_partial",
    "Verif.SparsePtr.C68_order_violated"
   ],
   "note": "Positive strides; reversed for every negative stride (violated theorem)."
  },
  {
   "property": "C69",
   "status": "partial",
   "theorems": [
    "Verif.SparsePtr.C69_convert_partial",
    "Verif.SparsePtr.C69_convert_violated"
   ],
   "note": "Bases at offset 0; not adjusted at any other offset (violated theorem)."
  },
  {
   "property": "C70",
   "status": "proved",
   "theorems": [
    "Verif.Hash.C70_burst"
   ],
   "note": "Full."
  },
  {
   "property": "C71",
   "status": "partial",
   "theorems": [
    "Verif.Result.C71_lvalue_partial",
    "Verif.Result.C71_lvalue_violated"
   ],
   "note": "Result<V, E>; Result<void, E> moves from lvalues (violated theorem, for all types whose moves are observable)."
  },
  {
   "property": "C72",
   "status": "partial",
   "theorems": [
    "Verif.Movable.C72_lvalue_partial",
    "Verif.Movable.C72_lvalue_violated",
    "Verif.Movable.C72_wrapper_partial",
    "Verif.Movable.C72_wrapper_compiles",
    "Verif.Movable.C72_wrapper_violated"
   ],
   "note": "Construction full; assignment of a value moves from lvalues, assignment of another MovableValue moves from non-const lvalues of types with operator=(T) (violated theorems) and does not compile for types with both assignment operators."
  },
  {
   "property": "C73",
   "status": "partial",
   "theorems": [
    "Verif.FunctionRef.C73_history_partial",
    "Verif.FunctionRef.C73_temporary_violated",
    "Verif.FunctionRef.C73_argument",
    "Verif.FunctionRef.C73_null_violated"
   ],
   "note": "All histories over callables bound as lvalues. Excluded and refuted: later calls of a FunctionRef made from a temporary, call or copy of a null FunctionRef."
  },
  {
   "property": "C74",
   "status": "partial",
   "theorems": [
    "Verif.SafeCast.C74_integral_partial",
    "Verif.SafeCast.C74_fraction",
    "Verif.SafeCast.C74_edge_violated",
    "Verif.SafeCast.C74_large_violated"
   ],
   "note": "Integral values of the range of long long except the power of two beyond the maximum, and all fractions. Violated: that power of two, infinities, NaN and values beyond long long, which are converted (undefined) before they are checked."
  },
  {
   "property": "C75",
   "status": "partial",
   "theorems": [
    "Verif.SafeCast.C75_downcast_violated",
    "Verif.SafeCast.C75_downcast_partial"
   ],
   "note": "Only the successful direction; the check is never made (violated theorem, all hierarchies)."
  },
  {
   "property": "C76",
   "status": "proved",
   "theorems": [
    "Verif.SafeCast.C76_round_trip"
   ],
   "note": "Full."
  },
  {
   "property": "C77",
   "status": "proved",
   "theorems": [
    "Verif.FloatMath.C77_paths",
    "Verif.FloatMath.C77_classification",
    "Verif.FloatMath.C77_exactly_one"
   ],
   "note": "Full."
  },
  {
   "property": "C78",
   "status": "partial",
   "theorems": [
    "Verif.FloatMath.C78_paths",
    "Verif.FloatMath.C78_symmetric",
    "Verif.FloatMath.C78_finite",
    "Verif.FloatMath.C78_near_exact",
    "Verif.FloatMath.C78_reflexive",
    "Verif.FloatMath.C78_infinity_violated",
    "Verif.FloatMath.C78_nan",
    "Verif.FloatMath.C78_default"
   ],
   "note": "Full for finite numbers and NaN, with what the rounding of the distance can change stated exactly; equal infinities compare different (violated theorem)."
  },
  {
   "property": "C79",
   "status": "partial",
   "theorems": [
    "Verif.FloatMath.C79_clamp",
    "Verif.FloatMath.C79_clamp_nan_violated",
    "Verif.FloatMath.C79_approach",
    "Verif.FloatMath.C79_approach_reaches_partial",
    "Verif.FloatMath.C79_approach_stuck_violated"
   ],
   "note": "Clamp full for total orders; bounds and Approach within the objective full. A NaN is passed on by Clamp (violated theorem). Approach reaches the objective if each step is exact; otherwise it can get stuck (violated theorem)."
  },
  {
   "property": "C80",
   "status": "partial",
   "theorems": [
    "Verif.FloatMath.C80_lerp_zero_partial",
    "Verif.FloatMath.C80_lerp_zero_violated",
    "Verif.FloatMath.C80_lerp_overflow",
    "Verif.FloatMath.C80_lerp_one_partial",
    "Verif.FloatMath.C80_lerp_one_violated",
    "Verif.FloatMath.C80_lerp_mono",
    "Verif.FloatMath.C80_lerp_anti",
    "Verif.FloatMath.C80_lerp_between_partial",
    "Verif.FloatMath.C80_lerp_overshoot_violated",
    "Verif.FloatMath.C80_lerp_int_partial",
    "Verif.FloatMath.C80_lerp_int_narrow",
    "Verif.FloatMath.C80_lerp_unsigned_violated",
    "Verif.FloatMath.C80_lerp_one_error",
    "Verif.FloatMath.C80_lerp_error",
    "Verif.FloatMath.C80_lerp_one_overflow_violated"
   ],
   "note": "Ends exact when the difference is representable, monotone whenever it does not overflow; in general a finite result is within 6 units of rounding of the exact interpolation (C80_lerp_error; at 1: C80_lerp_one_error). Violated: interpolation 0 with overflowing difference, interpolation 1, overshoot, a result that overflows at 1 although the difference does not (C80_lerp_one_overflow_violated), unsigned integers downwards."
  },
  {
   "property": "C81",
   "status": "partial",
   "theorems": [
    "Verif.FloatMath.C81_mod_run",
    "Verif.FloatMath.C81_mod_run_special",
    "Verif.FloatMath.C81_mod_integers",
    "Verif.FloatMath.C81_mod_const_partial",
    "Verif.FloatMath.C81_mod_const_violated",
    "Verif.FloatMath.C81_mod_infinite_violated",
    "Verif.FloatMath.C81_mod_overflow_violated",
    "Verif.FloatMath.C81_mod_zero",
    "Verif.FloatMath.C81_mod_unsigned",
    "Verif.FloatMath.C81_mod_signed"
   ],
   "note": "Run time full; integers full; constant expressions for exactly representable intermediate results. Violated in general: rounded quotients, infinite divisors, quotients beyond long long."
  },
  {
   "property": "C82",
   "status": "partial",
   "theorems": [
    "Verif.FloatMath.C82_multiplyAdd_partial",
    "Verif.FloatMath.C82_multiplyAdd_mono",
    "Verif.FloatMath.C82_multiplyAdd_violated"
   ],
   "note": "Exact and one-rounding cases, monotone; the result depends on the platform (violated theorem)."
  },
  {
   "property": "C83",
   "status": "partial",
   "theorems": [
    "Verif.FloatMath.C83_constants",
    "Verif.FloatMath.C83_multiples",
    "Verif.FloatMath.C83_longDouble_violated"
   ],
   "note": "float and double; violated for long double of 80 bits, whose constants are literals of type double."
  },
  {
   "property": "C84",
   "status": "partial",
   "theorems": [
    "Verif.FloatMath.C84_max",
    "Verif.FloatMath.C84_min_violated",
    "Verif.FloatMath.C84_min_partial",
    "Verif.FloatMath.C84_integers"
   ],
   "note": "Integers and MaxValue full. MinValue of floating-point types is the least positive normal number (violated theorem; partial theorem says what it is)."
  },
  {
   "property": "C85",
   "status": "proved",
   "theorems": [
    "Verif.FloatMath.C85_mono",
    "Verif.FloatMath.C85_degreeToRadian",
    "Verif.FloatMath.C85_radianToDegree",
    "Verif.FloatMath.C85_radianToDegree_overflow",
    "Verif.FloatMath.C85_roundTrip"
   ],
   "note": "float and double, all angles. The bound is relative to the exact angle, or to the smallest number with all its digits where the result is below it (64 times that number for the round trip). Results that do not fit are infinities (C85_radianToDegree_overflow; between the two bounds, within four units of the last place of the end of the range, either may happen)."
  },
  {
   "property": "C86",
   "status": "partial",
   "theorems": [
    "Verif.Assert.C86_disabled",
    "Verif.Assert.C86_enabled_partial",
    "Verif.Assert.C86_same_partial",
    "Verif.Assert.C86_else_violated"
   ],
   "note": "Disabled: all programs. Enabled: all programs in which no assertion is directly followed by `else`; violated for all of those (theorem)."
  },
  {
   "property": "C87",
   "status": "proved",
   "theorems": [
    "Verif.Assert.C87_never_returns",
    "Verif.Assert.C87_verbatim",
    "Verif.Assert.C87_formatted",
    "Verif.Assert.C87_functions"
   ],
   "note": "Full, for printf formats of the conversions %s, %d and %%."
  },
  {
   "property": "C88",
   "status": "partial",
   "theorems": [
    "Verif.SafeCast.C88_widen",
    "Verif.SafeCast.C88_range_partial",
    "Verif.SafeCast.C88_nonfinite",
    "Verif.SafeCast.C88_precision_violated",
    "Verif.SafeCast.C88_lvalue_violated",
    "Verif.SafeCast.C88_integer_partial",
    "Verif.SafeCast.C88_integer_violated"
   ],
   "note": "Rvalues: values out of range, infinities and NaN are reported, values of the type kept. Violated: values in range that are no values of the type are rounded without report, lvalues are not checked, integers are not checked."
  },
  {
   "property": "C89",
   "status": "proved",
   "theorems": [
    "Verif.Strings.C89_hash_of_text",
    "Verif.Strings.C89_equal_keys",
    "Verif.Strings.C89_different_keys",
    "Verif.Strings.C89_embedded_null",
    "Verif.Strings.C89_undefined"
   ],
   "note": "Full, with std::hash as an arbitrary function of the characters."
  },
  {
   "property": "C90",
   "status": "proved",
   "theorems": [
    "Verif.Strings.C90_bytes",
    "Verif.Strings.C90_roundTrip",
    "Verif.Strings.C90_c_strings",
    "Verif.Strings.C90_null",
    "Verif.Strings.C90_paths",
    "Verif.Strings.C90_paths_windows"
   ],
   "note": "Full; paths relative to the platform's conversion, which is spelled out for POSIX (identity) and Windows (separators)."
  },
  {
   "property": "C91",
   "status": "partial",
   "theorems": [
    "Verif.UniquePtr.C91_transfer",
    "Verif.UniquePtr.C91_assign",
    "Verif.UniquePtr.C91_history_partial",
    "Verif.UniquePtr.C91_wrong_class_violated",
    "Verif.UniquePtr.C91_nonvirtual_violated"
   ],
   "note": "All histories whose casts go to classes the object has and through which it may be destroyed. Violated: casts to other classes are undefined instead of reported, casts to bases without virtual destructor are accepted."
  },
  {
   "property": "C92",
   "status": "partial",
   "theorems": [
    "Verif.FixedBitset.C92_history_partial",
    "Verif.FixedBitset.C92_next",
    "Verif.FixedBitset.C92_ofInt",
    "Verif.FixedBitset.C92_limit_violated",
    "Verif.FixedBitset.C92_self_violated",
    "Verif.FixedBitset.C92_container"
   ],
   "note": "All histories without self-assignment; a result that does not fit in the blocks of the container fails an assertion, exactly. Violated: the bound is (Capacity+7)/8 blocks, not bits, so sizes beyond Capacity are accepted with blocks wider than a byte; self-assignment loses the bits."
  },
  {
   "property": "C93",
   "status": "partial",
   "theorems": [
    "Verif.FunctionTraits.C93_traits_exact",
    "Verif.FunctionTraits.C93_traits_partial",
    "Verif.FunctionTraits.C93_const_ref",
    "Verif.FunctionTraits.C93_noexcept_violated",
    "Verif.FunctionTraits.C93_variadic_violated",
    "Verif.FunctionTraits.C93_qualified_violated"
   ],
   "note": "Exact characterisation over every type; the traits are right wherever they exist. Violated (does not compile): noexcept function types, qualified function types, C variadic parameter lists, volatile pointers."
  },
  {
   "property": "C94",
   "status": "partial",
   "theorems": [
    "Verif.FunctionTraits.C94_isFunctor_exact",
    "Verif.FunctionTraits.C94_functor_traits_partial",
    "Verif.FunctionTraits.C94_traits_functor_partial",
    "Verif.FunctionTraits.C94_pointer_violated",
    "Verif.FunctionTraits.C94_reference_violated",
    "Verif.FunctionTraits.C94_function_violated"
   ],
   "note": "Exact characterisation. Violated: function pointers and references have traits but do not satisfy Functor; noexcept, qualified and variadic function types satisfy Functor but have no traits."
  },
  {
   "property": "C95",
   "status": "partial",
   "theorems": [
    "Verif.FunctionTraits.C95_overload_exact",
    "Verif.FunctionTraits.C95_overload_partial",
    "Verif.FunctionTraits.C95_const_overloads_violated",
    "Verif.FunctionTraits.C95_volatile_violated",
    "Verif.FunctionTraits.C95_overload_sound"
   ],
   "note": "Exact characterisation over every overload set, never a wrong function. Violated: overloads that differ in const or reference qualifiers only cannot be told apart, volatile and C variadic functions cannot be selected."
  },
  {
   "property": "C96",
   "status": "proved",
   "theorems": [
    "Verif.Signal.C96_safe",
    "Verif.Signal.C96_next_emission",
    "Verif.Signal.C96_throw",
    "Verif.Signal.C96_no_throw"
   ],
   "note": "C38-C43 range over histories that contain emissions ended by exceptions as well; C96_no_throw shows that the two models of an emission agree when nothing is thrown."
  },
  {
   "property": "C97",
   "status": "partial",
   "theorems": [
    "Verif.BitsetAlloc.C97_history_partial",
    "Verif.BitsetAlloc.C97_strong_partial",
    "Verif.BitsetAlloc.C97_granted",
    "Verif.BitsetAlloc.C97_resize_exact",
    "Verif.BitsetAlloc.C97_append_violated",
    "Verif.BitsetAlloc.C97_write_violated"
   ],
   "note": "Proved for all operations except AppendBits and Write over every history; these two are violated: the size grows before the block is allocated, the last bit can then not be read (undefined behaviour). Resizing to the old size repairs the bitset."
  },
  {
   "property": "C98",
   "status": "partial",
   "theorems": [
    "Verif.MemoryPoolAlloc.C98_history_partial",
    "Verif.MemoryPoolAlloc.C98_call_partial",
    "Verif.MemoryPoolAlloc.C98_strong_partial",
    "Verif.MemoryPoolAlloc.C98_next_violated",
    "Verif.MemoryPoolAlloc.C98_residue_violated",
    "Verif.MemoryPoolAlloc.C98_recovery"
   ],
   "note": "Proved: objects, indices, addresses, iteration, Free, Clear and the destructor over every history with failures. Violated: a failure after emplace_back leaves a block without entries that is counted as free; when all other entries are in use, Allocate fails with an assertion or uses a null pointer, even with enough memory."
  },
  {
   "property": "C99",
   "status": "partial",
   "theorems": [
    "Verif.FixedVector.C99_push_back",
    "Verif.FixedVector.C99_moves_partial",
    "Verif.FixedVector.C99_copies_violated",
    "Verif.FixedVector.C99_assign_partial",
    "Verif.FixedVector.C99_assign_violated"
   ],
   "note": "Proved: the value appended, and the moved-from source as long as the inline storage takes the element. Violated: with the fallback in use, or when the call changes to the fallback, the element is copied and the source keeps it; move assignment to a vector that uses its fallback copies every element."
  },
  {
   "property": "C100",
   "status": "partial",
   "theorems": [
    "Verif.FixedVectorAlloc.C100_call",
    "Verif.FixedVectorAlloc.C100_enough_memory",
    "Verif.FixedVectorAlloc.C100_history",
    "Verif.FixedVectorAlloc.C100_push_back_partial",
    "Verif.FixedVectorAlloc.C100_push_back_violated",
    "Verif.FixedVectorAlloc.C100_copy_construct",
    "Verif.FixedVectorAlloc.C100_copy_assign_partial",
    "Verif.FixedVectorAlloc.C100_copy_assign_violated",
    "Verif.FixedVectorAlloc.C100_move_construct",
    "Verif.FixedVectorAlloc.C100_move_assign_partial",
    "Verif.FixedVectorAlloc.C100_move_assign_violated"
   ],
   "note": "Proved for emplace_back, insert, resize, reserve, copy and move construction, and for histories. Violated: push_back of elements that do not throw when copied is noexcept and ends the program; copy assignment to a vector that uses its fallback of one that does not loses the elements (or ends the program); move assignment of the same kind gives up its buffer and ends the program if it gets no other."
  },
  {
   "property": "C101",
   "status": "partial",
   "theorems": [
    "Verif.FixedVectorAlloc.C101_capacity",
    "Verif.FixedVectorAlloc.C101_call",
    "Verif.FixedVectorAlloc.C101_once",
    "Verif.FixedVectorAlloc.C101_history",
    "Verif.FixedVectorAlloc.C101_inline",
    "Verif.FixedVectorAlloc.C101_reserve_partial",
    "Verif.FixedVectorAlloc.C101_reserve_violated"
   ],
   "note": "Proved except for reserve(n) on a vector that uses its fallback, n at most the inline capacity and more than capacity(): the request is ignored (violated)."
  },
  {
   "property": "C102",
   "status": "proved",
   "theorems": [
    "Verif.FixedVectorAlloc.C102_kept_values",
    "Verif.FixedVectorAlloc.C102_stable",
    "Verif.FixedVectorAlloc.C102_moves",
    "Verif.FixedVectorAlloc.C102_move_construct"
   ],
   "note": "Proved; addresses are those of the storage (inline, or a buffer that is identified by the allocation that made it) and the index."
  },
  {
   "property": "C103",
   "status": "partial",
   "theorems": [
    "Verif.StackAlloc.C103_room_partial",
    "Verif.StackAlloc.C103_vector_partial",
    "Verif.StackAlloc.C103_array_partial",
    "Verif.StackAlloc.C103_overflow_violated",
    "Verif.StackAlloc.C103_evaluated_violated",
    "Verif.StackAlloc.C103_side_effects_violated"
   ],
   "note": "Proved for size expressions without side effects whose size in bytes fits in size_t. Violated: the macro evaluates the expression two or three times (with i++ the capacity may exceed the buffer), and a size in bytes that wraps around (also a negative number) gives a buffer smaller than the capacity; the following calls write outside the buffer. Not modelled: the alignment of alloca for over-aligned types."
  },
  {
   "property": "C104",
   "status": "partial",
   "theorems": [
    "Verif.StackAlloc.C104_lives",
    "Verif.StackAlloc.C104_returned_violated",
    "Verif.StackAlloc.C104_released",
    "Verif.StackAlloc.C104_loop_violated"
   ],
   "note": "Proved: usable until the function returns, and given back then. Violated beyond: a stack vector moved or returned to the caller is dangling, and the memory is not given back at the end of a block (a loop uses the memory of all its iterations)."
  },
  {
   "property": "C105",
   "status": "partial",
   "theorems": [
    "Verif.CallOnExit.Nested.C105_scope",
    "Verif.CallOnExit.Nested.C105_called",
    "Verif.CallOnExit.Nested.C105_order",
    "Verif.CallOnExit.Nested.C105_reverse",
    "Verif.CallOnExit.Nested.C105_cycle_violated",
    "Verif.CallOnExit.Nested.C105_reset_self_violated"
   ],
   "note": "Proved for functors that use guards declared before their own. Violated for functors that use their own guard: CallAndReset (directly or through other guards) recurses for ever because the functor is called before it is given up; Reset destroys the running functor, so going on is undefined."
  },
  {
   "property": "C106",
   "status": "partial",
   "theorems": [
    "Verif.Result.Helper.C106_direct",
    "Verif.Result.Helper.C106_kept_partial",
    "Verif.Result.Helper.C106_dangling_violated",
    "Verif.Result.Helper.C106_changed_violated",
    "Verif.Result.Helper.C106_twice_violated",
    "Verif.Result.Helper.C106_lvalue_twice"
   ],
   "note": "Proved when the conversion is part of the same expression, and when the argument is left as it is until the conversion. Violated otherwise: the object returned by Ok or Err holds a reference to its argument, so it dangles once the argument (for instance a temporary) has ended, shows later changes, and gives a moved-from value when converted twice."
  },
  {
   "property": "C107",
   "status": "partial",
   "theorems": [
    "Verif.HybridBitset.C107_history_partial",
    "Verif.HybridBitset.C107_self_violated",
    "Verif.HybridBitset.C107_container"
   ],
   "note": "Proved, except that a bitset that never had more bits (or room) than its inline blocks loses them when assigned to itself. C107_container proves that the container model used is that of FixedVector with a fallback."
  },
  {
   "property": "C108",
   "status": "proved",
   "theorems": [
    "Verif.FixedVector.C108_visit",
    "Verif.FixedVector.C108_update",
    "Verif.FixedVector.C108_erase",
    "Verif.FixedVector.C108_insert",
    "Verif.StackVector.C108_stackVector",
    "Verif.StackVector.C108_stackArray"
   ],
   "note": "The fuel argument bounds the number of iterations; any bound from the length on gives the result. Reallocation inside the fallback std::vector is not modelled: the iterators used in the loops are always those returned by the last call."
  },
  {
   "property": "C109",
   "status": "proved",
   "theorems": [
    "Verif.FixedVector.C109_position",
    "Verif.FixedVector.C109_stable",
    "Verif.FixedVector.C109_outgrown",
    "Verif.StackVector.C109_stackVector",
    "Verif.StackVector.C109_stackVector_range"
   ],
   "note": "For vectors whose elements are inline; for references into the fallback the rules of std::vector apply and are not modelled."
  },
  {
   "property": "C110",
   "status": "partial",
   "theorems": [
    "Verif.Signal.C110_uses_first_partial",
    "Verif.Signal.C110_safe_partial",
    "Verif.Signal.C110_self_disconnect_violated",
    "Verif.Signal.C110_self_clear_violated"
   ],
   "note": "Partial because the code violates it: C110_self_disconnect_violated and C110_self_clear_violated show undefined behaviour after every history; the _partial theorems are under the guard that callbacks use captures first."
  },
  {
   "property": "C111",
   "status": "proved",
   "theorems": [
    "Verif.Signal.C111_by_value",
    "Verif.Signal.C111_by_reference"
   ],
   "note": "One argument, a number; the callbacks that assign to it do nothing to signals. The order in which slots are called after disconnections is any, as in C38."
  },
  {
   "property": "C112",
   "status": "partial",
   "theorems": [
    "Verif.Bytes.C112_methods",
    "Verif.Bytes.C112_same_type",
    "Verif.Bytes.C112_integers",
    "Verif.Bytes.C112_round_trip_partial",
    "Verif.Bytes.C112_padding_violated",
    "Verif.Bytes.C112_bool_violated",
    "Verif.Bytes.C112_bytes"
   ],
   "note": "Unions, bit-fields, pointers and over-aligned types are not in the model; the round trip is partial because padding loses the value (C112_padding_violated) and bool has bytes that are no value (C112_bool_violated)."
  },
  {
   "property": "C113",
   "status": "proved",
   "theorems": [
    "Verif.Bytes.C113_layout",
    "Verif.Bytes.C113_member",
    "Verif.Bytes.C113_read",
    "Verif.Bytes.C113_write",
    "Verif.Bytes.C113_undefined"
   ],
   "note": "The layout of structures is that of the usual ABIs, as a part of the model. NazaraOffsetOf names a member of an object at the null pointer, which is undefined by the standard; the model has what compilers compute."
  },
  {
   "property": "C114",
   "status": "partial",
   "theorems": [
    "Verif.Retrieve.C114_total",
    "Verif.Retrieve.C114_reference",
    "Verif.Retrieve.C114_apart",
    "Verif.Retrieve.C114_missing",
    "Verif.Retrieve.C114_temporary_violated"
   ],
   "note": "The maps are std::map or std::unordered_map, modelled as the standard describes them (stable nodes); multimaps are C171."
  },
  {
   "property": "C115",
   "status": "partial",
   "theorems": [
    "Verif.FixedVector.C115_no_throw",
    "Verif.FixedVector.C115_erase",
    "Verif.FixedVector.C115_emplace_partial",
    "Verif.FixedVector.C115_emplace_violated",
    "Verif.FixedVector.C115_grow_partial",
    "Verif.FixedVector.C115_grow_violated",
    "Verif.FixedVector.C115_noexcept_violated"
   ],
   "note": "erase and erase(first, last) full. emplace, insert and growth into the fallback hold for the first move only; each other move is covered by a violated theorem, as are the noexcept move constructor and move assignment (the program ends)."
  },
  {
   "property": "C116",
   "status": "partial",
   "theorems": [
    "Verif.FixedVector.C116_no_throw",
    "Verif.FixedVector.C116_constructor_partial",
    "Verif.FixedVector.C116_leak_violated",
    "Verif.FixedVector.C116_range_violated",
    "Verif.FixedVector.C116_assign_partial",
    "Verif.FixedVector.C116_assign_violated"
   ],
   "note": "Holds for elements in the fallback; every other exception point is covered by a violated theorem (a leak, or undefined behaviour in the destructor). Copy assignment from a source using its fallback is the one of std::vector and not covered."
  },
  {
   "property": "C117",
   "status": "proved",
   "theorems": [
    "Verif.Signal.C117_nested"
   ],
   "note": "Full, by induction over the nested emissions; Complete (SpecNested.lean) is the specification of the events."
  },
  {
   "property": "C118",
   "status": "partial",
   "theorems": [
    "Verif.Signal.C118_disconnect",
    "Verif.Signal.C118_clear_partial",
    "Verif.Signal.C118_destroy_partial",
    "Verif.Signal.C118_clear_violated"
   ],
   "note": "Disconnect full. Clear and ~Signal under the guard that the callbacks of the signal own no guards of other slots of it; violated for every signal with two slots otherwise (the vector of slots is used while it is being cleared). Emissions during which such slots are disconnected: C135."
  },
  {
   "property": "C119",
   "status": "partial",
   "theorems": [
    "Verif.Signal.C119_enough_memory",
    "Verif.Signal.C119_connect",
    "Verif.Signal.C119_connection",
    "Verif.Signal.C119_guard_partial",
    "Verif.Signal.C119_guard_violated",
    "Verif.Signal.C119_move_partial",
    "Verif.Signal.C119_move_violated"
   ],
   "note": "Connect and Connection::Connect full. Violated, in all other cases than those of the partial theorems: ConnectionGuard::Connect (the old slot is lost), move assignment to a signal that had two slots of one that has one and never had two (noexcept)."
  },
  {
   "property": "C120",
   "status": "partial",
   "theorems": [
    "Verif.MemoryPool.C120_loop",
    "Verif.MemoryPool.C120_visits",
    "Verif.MemoryPool.C120_ends",
    "Verif.MemoryPool.C120_clear_violated"
   ],
   "note": "Full, Clear in a body excepted (violated: the iterator refers to a block that does not exist any more)."
  },
  {
   "property": "C121",
   "status": "partial",
   "theorems": [
    "Verif.MemoryPool.C121_free",
    "Verif.MemoryPool.C121_destroy_partial",
    "Verif.MemoryPool.C121_destroy_violated",
    "Verif.MemoryPool.C121_owns_nothing"
   ],
   "note": "Free full (for roots of trees). Destructor and Clear (blocks of at least two entries) under the guard that roots come first, which is exact: in all other cases they fail. Destructors that allocate: C128."
  },
  {
   "property": "C122",
   "status": "partial",
   "theorems": [
    "Verif.StackVector.C122_alias_partial",
    "Verif.StackVector.C122_emplace_violated"
   ],
   "note": "push_back, emplace_back, resize full; emplace and insert for elements before the position; undefined at the position, wrong value after it (violated theorem, all such calls)."
  },
  {
   "property": "C123",
   "status": "partial",
   "theorems": [
    "Verif.StackVector.C123_no_throw",
    "Verif.StackVector.C123_erase",
    "Verif.StackVector.C123_emplace_partial",
    "Verif.StackVector.C123_emplace_violated"
   ],
   "note": "erase and erase(first, last) full. emplace and insert for the first move; each other move is covered by the violated theorem."
  },
  {
   "property": "C124",
   "status": "partial",
   "theorems": [
    "Verif.Signal.C124_safe",
    "Verif.Signal.C124_called",
    "Verif.Signal.C124_plain_violated",
    "Verif.Signal.C124_moved_violated"
   ],
   "note": "full for objects that are not moved and hold their guards; connections without guard and moved objects are covered by the violated theorems (all such programs). The member function is the same for all slots of an object; signals are not destroyed or moved during emissions."
  },
  {
   "property": "C125",
   "status": "proved",
   "theorems": [
    "Verif.Signal.C125_reads",
    "Verif.Signal.C125_connect",
    "Verif.Signal.C125_disconnect",
    "Verif.Signal.C125_clear",
    "Verif.Signal.C125_new",
    "Verif.Signal.C125_destroy",
    "Verif.Signal.C125_move",
    "Verif.Signal.C125_moveConstruct",
    "Verif.Signal.C125_self",
    "Verif.Signal.C125_emit"
   ],
   "note": "The link between the model of signals (list and flag) and the model of FixedVector: each operation that is defined in the former is a defined sequence of calls in the latter with corresponding results."
  },
  {
   "property": "C126",
   "status": "proved",
   "theorems": [
    "Verif.MemoryPool.C126_calls",
    "Verif.MemoryPool.C126_build",
    "Verif.MemoryPool.C126_return",
    "Verif.MemoryPool.C126_trees",
    "Verif.MemoryPool.C126_destroy"
   ],
   "note": "C126_calls: nested calls are reduced to a flat history, so that C32-C37, C120 and C121 apply.  The trees are those whose nodes are all made by constructors and freed with their roots; trees that are changed afterwards may break the order that the destructor needs (C121_destroy_violated).  Destructors that allocate: C128: Reset keeps a reference into the vector of blocks."
  },
  {
   "property": "C127",
   "status": "partial",
   "theorems": [
    "Verif.Signal.C127_safe_partial",
    "Verif.Signal.C127_exact_partial",
    "Verif.Signal.C127_destroy_violated",
    "Verif.Signal.C127_move_violated"
   ],
   "note": "Refuted for the signal being emitted: destroying it in a callback is undefined behaviour at ++m_slotIterator (C127_destroy_violated), moving its slots away ends the emission, the other slots are not called although connected (C127_move_violated).  Proved for all programs that neither destroy a signal nor move from it during its own emission (and use moves as in C43).  The exactness of an emission is proved for emissions during which the signal is not cleared, emitted or moved, and where no callback disconnects a slot of the signal and then connects one (C42_skips_violated, C67_recursive_violated are the reasons).  Programs that do not end are cut off by fuel: the theorems speak about those that end."
  },
  {
   "property": "C128",
   "status": "partial",
   "theorems": [
    "Verif.MemoryPool.C128_exact",
    "Verif.MemoryPool.C128_many_partial",
    "Verif.MemoryPool.C128_free",
    "Verif.MemoryPool.C128_quiet_partial",
    "Verif.MemoryPool.C128_destroy_partial",
    "Verif.MemoryPool.C128_destroy_violated"
   ],
   "note": "Free full (C128_free). Clear and the destructor (blocks of at least two entries) for one object that allocates one object: exact condition, outside of which they fail or lose the new object (C128_destroy_violated, all such pools); C128_quiet_partial: no object allocates.  Any number of objects that allocate any numbers of others, to any depth: C128_exact gives the exact condition (Clean) in terms of the contents of the pool, C128_many_partial a condition on the objects that are there."
  },
  {
   "property": "C129",
   "status": "proved",
   "theorems": [
    "Verif.Signal.C129_defined",
    "Verif.Signal.C129_isConnected",
    "Verif.Signal.C129_connected",
    "Verif.Signal.C129_no_leak",
    "Verif.Signal.C129_copy",
    "Verif.Signal.C129_assign",
    "Verif.Signal.C129_ended",
    "Verif.Signal.C129_ended_guard",
    "Verif.Signal.C129_move"
   ],
   "note": "Full, for the statements that compile (assignment of a Connection&& to a guard does not).  Emissions in between have any callbacks of C39 and C96, which disconnect slots, not variables; callbacks that own guards are in C118 and C124.  Uses of signals and guards that have ended are undefined (C129_ended, C129_ended_guard)."
  },
  {
   "property": "C130",
   "status": "proved",
   "theorems": [
    "Verif.Bitset.C130_operators",
    "Verif.Bitset.C130_shift_bits",
    "Verif.Bitset.C130_constIndex",
    "Verif.Bitset.C130_writePtr"
   ],
   "note": "Full for unsigned integers and texts of 0 and 1; calls are allowed as in C01.  The stream has no width or fill set."
  },
  {
   "property": "C131",
   "status": "partial",
   "theorems": [
    "Verif.Hash.C131_select",
    "Verif.Hash.C131_crc32_partial",
    "Verif.Hash.C131_fnv_partial",
    "Verif.Hash.C131_array_exact",
    "Verif.Hash.C131_array_violated"
   ],
   "note": "Violated for arrays of char that are not const: they select the template for arrays, which hashes the whole array with the null and what follows it (C131_array_exact, C131_array_violated: the exact texts for which the hash is the same nevertheless); literals select the overload of C strings.  FNV-1a also needs characters that are not negative (C49)."
  },
  {
   "property": "C132",
   "status": "partial",
   "theorems": [
    "Verif.Signal.Threads.C132_locked_partial",
    "Verif.Signal.Threads.C132_ends_partial",
    "Verif.Signal.Threads.C132_overlap_ub_violated",
    "Verif.Signal.Threads.C132_overlap_missed_violated"
   ],
   "note": "Proved for emissions that do not overlap (Locked: any schedule in which an emission begins only when no other is in progress); violated otherwise: operator() const writes to the shared mutable iterator (two violated theorems, for all signals).  The model is sequentially consistent with one access per step, in favour of the code; by the standard, overlapping emissions are a data race in every case."
  },
  {
   "property": "C133",
   "status": "proved",
   "theorems": [
    "Verif.Bytes.C133_bits",
    "Verif.Bytes.C133_values",
    "Verif.Bytes.C133_order",
    "Verif.Bytes.C133_equality",
    "Verif.Bytes.C133_swap",
    "Verif.Bytes.C133_endianness"
   ],
   "note": "A floating-point value passed or returned is assumed to keep its bits (SSE2, NEON); the x87 unit, which makes signalling NaNs quiet, is not modelled.  C133_values shows that the values of the objects are exactly those of the floating-point model of the other properties."
  },
  {
   "property": "C134",
   "status": "partial",
   "theorems": [
    "Verif.Bitset.C134_loop_partial",
    "Verif.Bitset.C134_visits_partial",
    "Verif.Bitset.C134_ends_partial",
    "Verif.Bitset.C134_shrink_violated"
   ],
   "note": "Partial because of the bodies that shorten the bitset to the current index or less, for which the loop fails its assertion (C134_shrink_violated, for every bitset with a set bit); full for all other bodies."
  },
  {
   "property": "C135",
   "status": "partial",
   "theorems": [
    "Verif.Signal.C135_safe_partial",
    "Verif.Signal.C135_without_guards",
    "Verif.Signal.C135_not_called_after",
    "Verif.Signal.C135_not_called_after_clear",
    "Verif.Signal.C135_clear_violated",
    "Verif.Signal.C135_disconnecting",
    "Verif.Signal.C135_connecting_partial"
   ],
   "note": "Safety and the order of the disconnections for callbacks that connect, disconnect, emit, and clear signals of which no callback owns guards of other slots (C135_safe_partial); violated for Clear of any signal with two slots otherwise (C135_clear_violated). Also partial: that every slot that stays connected is called is proved for callbacks that only disconnect, and, if the emission ends, for callbacks that connect first (C135_connecting_partial; false in general, see C42 and C67)."
  },
  {
   "property": "C136",
   "status": "partial",
   "theorems": [
    "Verif.Flags.C136_hash_partial",
    "Verif.Flags.C136_const_violated"
   ],
   "note": "Equal and different hashes for all programs of C44 (same guards); the hash cannot be called on a const function object, so std::unordered_set and std::unordered_map with the default hash do not compile (C136_const_violated: the model says when a call compiles, and the theorem follows from it at once)."
  },
  {
   "property": "C137",
   "status": "partial",
   "theorems": [
    "Verif.MathUtils.C137_isPow2_partial",
    "Verif.MathUtils.C137_isPow2_violated",
    "Verif.MathUtils.C137_alignPow2_partial",
    "Verif.MathUtils.C137_alignPow2_violated",
    "Verif.MathUtils.C137_roundToPow2_partial",
    "Verif.MathUtils.C137_roundToPow2_violated",
    "Verif.MathUtils.C137_getNearestPowerOfTwo_partial",
    "Verif.MathUtils.C137_getNearestPowerOfTwo_violated",
    "Verif.MathUtils.C137_countBits_partial",
    "Verif.MathUtils.C137_countBits_violated"
   ],
   "note": "Each function under an exact guard; the violated theorems cover every value outside it: undefined behaviour of IsPow2 on the least value (32 bits and more), of AlignPow2 when offset + alignment overflows, of RoundToPow2 on the least value and above the greatest power of two (narrow types: a negative result), GetNearestPowerOfTwo above the greatest power of two does not end in C++20 and is undefined before, CountBits in constant expressions undefined on all negative values of 32 and 64 bits."
  },
  {
   "property": "C138",
   "status": "partial",
   "theorems": [
    "Verif.PrivateImpl.Ctor.C138_removeCvRef",
    "Verif.PrivateImpl.Ctor.C138_heap_partial",
    "Verif.PrivateImpl.Ctor.C138_inline_partial",
    "Verif.PrivateImpl.Ctor.C138_volatile_violated",
    "Verif.PrivateImpl.Ctor.C138_several",
    "Verif.PrivateImpl.Ctor.C138_derived_violated",
    "Verif.PrivateImpl.Ctor.C138_construct_from_other"
   ],
   "note": "Overload resolution among the constructors for every argument and class hierarchy; effects after every history through C54. Not proved because false: volatile PrivateImpl (no constructor), objects of classes derived from PrivateImpl, pointers to classes derived from T on the heap (violated theorems, for all such arguments). Conversion functions of unrelated classes are not modelled."
  },
  {
   "property": "C139",
   "status": "partial",
   "theorems": [
    "Verif.Bitset.C139_exact",
    "Verif.Bitset.C139_nonneg",
    "Verif.Bitset.C139_appendBits_partial",
    "Verif.Bitset.C139_negative_violated",
    "Verif.Bitset.C139_wide_exact",
    "Verif.Bitset.C139_wide_partial",
    "Verif.Bitset.C139_wide_violated"
   ],
   "note": "Exact result for every value and every number of bits up to the width of the type; the values that are not negative for any number of bits. Violated for every negative value that is appended completely and leaves free bits in the last block. Negative values with more bits than the type has: exact result (C139_wide_exact); zeros follow, as documented, exactly when the bits of a type not wider than a block end with a block (C139_wide_partial, C139_wide_violated). Same condition on sizes as C07."
  },
  {
   "property": "C140",
   "status": "proved",
   "theorems": [
    "Verif.FunctionRef.C140_nested"
   ],
   "note": "Refinement to direct calls, by induction on the depth of nesting and on the program. Excluded as in C73: dead callables, calls and copies of null FunctionRefs."
  },
  {
   "property": "C141",
   "status": "partial",
   "theorems": [
    "Verif.Storage.C141_memoryPool_disjoint",
    "Verif.Storage.C141_memoryPool_partial",
    "Verif.Storage.C141_memoryPool_violated",
    "Verif.Storage.C141_fixedVector",
    "Verif.Storage.C141_privateImpl",
    "Verif.Storage.C141_privateImpl_padding",
    "Verif.Storage.C141_stack_partial",
    "Verif.Storage.C141_stack_violated"
   ],
   "note": "False in the code in two cases: a MemoryPool may be given an Alignment below alignof(T) (no static assertion), and the macros of StackArray and StackVector ask alloca or operator new for memory by its size alone, so types with a greater alignment than these give are misplaced (C141_memoryPool_violated, C141_stack_violated). Proved otherwise. For PrivateImpl the static assertions accept exactly the types that fit; a type may be larger than BufferSize if the padding suffices (C141_privateImpl_padding)."
  },
  {
   "property": "C142",
   "status": "partial",
   "theorems": [
    "Verif.Result.Ctor.C142_value_partial",
    "Verif.Result.Ctor.C142_nested_lvalue_partial",
    "Verif.Result.Ctor.C142_nested_violated",
    "Verif.Result.Ctor.C142_nested_default_violated",
    "Verif.Result.Ctor.C142_same_types",
    "Verif.Result.Ctor.C142_convert",
    "Verif.Result.Ctor.C142_convertible",
    "Verif.Result.Ctor.C142_tower_violated",
    "Verif.Result.Ctor.C142_convert_default_violated"
   ],
   "note": "False in the code for values that are Results themselves: if passed as rvalues or const lvalues the constructor that converts Results is the more specialised template, so that Result<Result<T, E>, E> made from a failed Result<T, E> has failed itself, and does not compile if T has no default constructor (C142_nested_violated, C142_nested_default_violated; to any depth C142_tower_violated). Conversions between Results do not compile if the value to make has no default constructor, for example if it is a Result<void, E>, although std::is_convertible holds (C142_convert_default_violated). Proved for other values, for other ways to pass, and for conversions between Results. If V and E are the same type there is no conversion from a value, by design (C142_same_types). Throwing conversions: C51."
  },
  {
   "property": "C143",
   "status": "partial",
   "theorems": [
    "Verif.Result.Ctor.C143_primary",
    "Verif.Result.Ctor.C143_void_partial",
    "Verif.Result.Ctor.C143_void_default_violated",
    "Verif.Result.Ctor.C143_void_several_violated",
    "Verif.Result.Ctor.C143_void_optional_violated",
    "Verif.Result.Ctor.C143_void_inPlace"
   ],
   "note": "False in the code for V = void: Result<void, E> initialises a std::optional<E> with the arguments, so that no arguments, std::nullopt or an empty std::optional make a success, and several arguments do not compile (C143_void_default_violated, C143_void_optional_violated, C143_void_several_violated). Proved for one ordinary argument, with std::in_place, and for V not void."
  },
  {
   "property": "C144",
   "status": "partial",
   "theorems": [
    "Verif.TypeTraits.C144_order",
    "Verif.TypeTraits.C144_exact",
    "Verif.TypeTraits.C144_exact_ref",
    "Verif.TypeTraits.C144_generic_partial",
    "Verif.TypeTraits.C144_generic_const_partial",
    "Verif.TypeTraits.C144_generic_ref_partial",
    "Verif.TypeTraits.C144_generic_rest",
    "Verif.TypeTraits.C144_generic_violated",
    "Verif.TypeTraits.C144_ambiguous",
    "Verif.TypeTraits.C144_two_generic",
    "Verif.TypeTraits.C144_conversion",
    "Verif.TypeTraits.C144_conversion_ambiguous",
    "Verif.TypeTraits.C144_not_bound",
    "Verif.TypeTraits.C144_visit"
   ],
   "note": "False in the code for generic handlers: a handler for const T& beside a generic one for auto&& is called only if the variant is a const lvalue, otherwise the generic handler takes T as well (C144_generic_violated). Proved without generic handlers, and with generic handlers in all other cases: beside handlers that take their type by value, by T& or T&&, and by const T& unless the generic one is for auto&& (C144_generic_partial, C144_generic_ref_partial, C144_generic_const_partial). Overload resolution is modelled for one argument; derived classes and templates other than auto are not."
  },
  {
   "property": "C145",
   "status": "partial",
   "theorems": [
    "Verif.TypeTraits.Complete.C145_first_use",
    "Verif.TypeTraits.Complete.C145_isComplete_partial",
    "Verif.TypeTraits.Complete.C145_late_violated",
    "Verif.TypeTraits.Complete.C145_reference"
   ],
   "note": "False in the code for a class that was asked about before its definition: the answer stays false after it (C145_late_violated; formally such a program is ill-formed without a diagnostic). Proved exactly: the answer is whether the type was complete at the first use (C145_first_use), hence right if no first use precedes the definition (C145_isComplete_partial). References do not compile (C145_reference). One translation unit only."
  },
  {
   "property": "C146",
   "status": "partial",
   "theorems": [
    "Verif.BitsetAlloc.C146_unboundedSet_partial",
    "Verif.BitsetAlloc.C146_false_violated",
    "Verif.BitsetAlloc.C146_unboundedReset_seen",
    "Verif.BitsetAlloc.C146_npos_violated"
   ],
   "note": "False in the code in two cases: UnboundedReset(i) and UnboundedSet(i, false) do not enlarge the bitset, other than their documentation says (C146_false_violated; UnboundedTest cannot tell the difference, C146_unboundedReset_seen), and UnboundedSet(npos) computes npos + 1 = 0, clears the bitset and fails the assertion of Set (C146_npos_violated, all bitsets). Proved for all other indices and values."
  },
  {
   "property": "C147",
   "status": "proved",
   "theorems": [
    "Verif.BitsetAlloc.C147_fits",
    "Verif.BitsetAlloc.C147_reserve",
    "Verif.BitsetAlloc.C147_reserved",
    "Verif.BitsetAlloc.C147_exact",
    "Verif.BitsetAlloc.C147_never_smaller",
    "Verif.BitsetAlloc.C147_clear"
   ],
   "note": "The vector is modelled by its blocks and its capacity; it asks for memory only to hold more blocks than its capacity, and takes any count that suffices. Constructors, assignments, Swap and the binary operators give a variable another vector: they may come anywhere in the history before, with any new capacity, but are not among the operations in place. (The remark at PerformsAND/OR/XOR that the capacity is set to the largest of the two bitsets is meant for the size: the capacity stays if it suffices, C147_reserved.)"
  },
  {
   "property": "C148",
   "status": "proved",
   "theorems": [
    "Verif.Signal.C148_clear_ends",
    "Verif.Signal.C148_one_call"
   ],
   "note": "Callbacks that emit the same signal again are excluded (for these: C39_safe, C67, C117)."
  },
  {
   "property": "C149",
   "status": "partial",
   "theorems": [
    "Verif.Args.C149_value",
    "Verif.Args.C149_argument_kept",
    "Verif.Args.C149_reference",
    "Verif.Args.C149_constant",
    "Verif.Args.C149_compiles",
    "Verif.Args.C149_compiles_only",
    "Verif.Args.C149_rvalue_reference_violated",
    "Verif.Args.C149_move_only_violated",
    "Verif.Args.C149_member"
   ],
   "note": "One parameter (the others are treated alike); the order of the calls and who is called: C38-C42. Violated: a signal with a parameter T&&, or with a by-value parameter of a type that can only be moved, cannot be emitted, since operator() passes the names of its parameters, which are lvalues (C149_rvalue_reference_violated, C149_move_only_violated: all such signals; C149_compiles: exactly which can be emitted). C149_member: the overloads of Connect for member functions."
  },
  {
   "property": "C150",
   "status": "proved",
   "theorems": [
    "Verif.Args.C150_reference",
    "Verif.Args.C150_constant",
    "Verif.Args.C150_value",
    "Verif.Args.C150_same"
   ],
   "note": "One parameter, without conversions between types; several parameters are C170."
  },
  {
   "property": "C151",
   "status": "partial",
   "theorems": [
    "Verif.FunctionRef.Ctor.C151_lvalue",
    "Verif.FunctionRef.Ctor.C151_named",
    "Verif.FunctionRef.Ctor.C151_refused",
    "Verif.FunctionRef.Ctor.C151_unqualified_partial",
    "Verif.FunctionRef.Ctor.C151_const_violated",
    "Verif.FunctionRef.Ctor.C151_rvalue_only_violated",
    "Verif.FunctionRef.Ctor.C151_overloads",
    "Verif.FunctionRef.Ctor.C151_rvalue_other_violated",
    "Verif.FunctionRef.Ctor.C151_lambda"
   ],
   "note": "Proved for lvalues that are not const (C151_lvalue), and for rvalues of callables without ref-qualified operators (or with const &), among them all lambdas and functions (C151_unqualified_partial); which callables are refused: C151_refused; what is called in general: C151_named. Violated: for const callables the constructor is selected but its body does not compile (reinterpret_cast<void*> of a const pointer; C151_const_violated: all that can be called), the same for callables that can only be called as rvalues (C151_rvalue_only_violated), and with an operator() for lvalues and one for rvalues the first is called (C151_rvalue_other_violated). Not modelled: volatile, variadic operators, pointers to members."
  },
  {
   "property": "C152",
   "status": "partial",
   "theorems": [
    "Verif.FunctionRef.Convert.C152_history_partial",
    "Verif.FunctionRef.Convert.C152_rebound_violated",
    "Verif.FunctionRef.Convert.C152_copy",
    "Verif.FunctionRef.Convert.C152_ended_violated",
    "Verif.FunctionRef.Convert.C152_cycle_violated"
   ],
   "note": "Proved for FunctionRefs of the same signature, and for other ones as long as the source is neither written to nor ended (C152_history_partial: all such histories, chains of any length). Violated otherwise: a FunctionRef of another signature keeps the address of the source, so that it follows later assignments (C152_rebound_violated), dangles when the source ends (C152_ended_violated), and two of them assigned to each other call each other without end (C152_cycle_violated)."
  },
  {
   "property": "C153",
   "status": "partial",
   "theorems": [
    "Verif.FixedVector.Select.C153_paren",
    "Verif.FixedVector.Select.C153_count_partial",
    "Verif.FixedVector.Select.C153_count_violated",
    "Verif.FixedVector.Select.C153_range",
    "Verif.FixedVector.Select.C153_size",
    "Verif.FixedVector.Select.C153_list",
    "Verif.FixedVector.Select.C153_empty",
    "Verif.FixedVector.Select.C153_brace_count"
   ],
   "note": "Which constructor v(a, b) calls, in all cases: C153_paren; the sequences made: C153_count_partial, C153_range, C153_size, C153_list, C153_empty; in braces: C153_brace_count. Violated: the constructor from a range has no constraint on its iterator type, so v(3, 5) for FixedVector<int, N> selects it and does not compile (C153_count_violated: all arguments of the same type, unless it is both the size type and T). Not modelled: arguments that are vectors, initializer lists or braced lists."
  },
  {
   "property": "C154",
   "status": "partial",
   "theorems": [
    "Verif.Bitset.Select.C154_text_partial",
    "Verif.Bitset.Select.C154_other_text_violated",
    "Verif.Bitset.Select.C154_convert_violated",
    "Verif.Bitset.Select.C154_integer",
    "Verif.Bitset.Select.C154_zero_bool",
    "Verif.Bitset.Select.C154_accepts_violated",
    "Verif.Bitset.Select.C154_floating_violated",
    "Verif.Bitset.Select.C154_sizeValue",
    "Verif.Bitset.Select.C154_fill_partial",
    "Verif.Bitset.Select.C154_fill_text_violated",
    "Verif.Bitset.Select.C154_fill_floating_violated",
    "Verif.Bitset.Select.C154_fill_violated",
    "Verif.Bitset.Select.C154_prefix",
    "Verif.Bitset.Select.C154_prefix_refused"
   ],
   "note": "C154_fill_text_violated and C154_fill_floating_violated: texts and floating point numbers as the value or number of bits; C154_prefix_refused: strings and views with a number of characters do not compile; Proved for texts of type const char*, std::string and std::string_view (C154_text_partial), integers (C154_integer, C154_zero_bool; negative ones narrower than a block: C06), counts and values (C154_fill_partial, C154_sizeValue), prefixes of texts (C154_prefix). Violated: Bitset(T) has no constraint and is preferred to every conversion, so char*, arrays of char and all other classes that convert to a text do not compile (C154_other_text_violated), texts are accepted as implicit conversions that do not compile (C154_convert_violated), everything is accepted by overload resolution (C154_accepts_violated), floating point numbers are silently truncated (C154_floating_violated), and Bitset(0, v) is ambiguous or reads a null pointer (C154_fill_violated). Not modelled: classes that convert to numbers, braces."
  },
  {
   "property": "C155",
   "status": "partial",
   "theorems": [
    "Verif.SparsePtr.Mixed.C155_compare_partial",
    "Verif.SparsePtr.Mixed.C155_compare_raw",
    "Verif.SparsePtr.Mixed.C155_compare_violated",
    "Verif.SparsePtr.Mixed.C155_difference_partial",
    "Verif.SparsePtr.Mixed.C155_difference_violated",
    "Verif.SparsePtr.Mixed.C155_convert_violated",
    "Verif.SparsePtr.Mixed.C155_stride_partial",
    "Verif.SparsePtr.Mixed.C155_stride_violated"
   ],
   "note": "Proved for comparisons whose right operand converts to the type of the left one (C155_compare_partial; plain pointers: C155_compare_raw), for differences of the same type (C155_difference_partial), for strides of type int, std::size_t and types that promote to int (C155_stride_partial). Violated: the other order of comparisons (C155_compare_violated), all differences of two types (C155_difference_violated: the template for integers is preferred), conversions accepted for all types (C155_convert_violated), strides of other types (C155_stride_violated). C++17 rules; base classes at an offset: C69."
  },
  {
   "property": "C156",
   "status": "partial",
   "theorems": [
    "Verif.Flags.Mixed.C156_sets_partial",
    "Verif.Flags.Mixed.C156_programs_partial",
    "Verif.Flags.Mixed.C156_number",
    "Verif.Flags.Mixed.C156_foreign_violated",
    "Verif.Flags.Mixed.C156_cut_violated",
    "Verif.Flags.Mixed.C156_floating_violated",
    "Verif.Flags.Mixed.C156_refused",
    "Verif.Flags.Mixed.C156_order_violated",
    "Verif.Flags.Mixed.C156_arithmetic_violated",
    "Verif.Flags.Mixed.C156_numbers",
    "Verif.Flags.Mixed.C156_hidden_violated",
    "Verif.Flags.Mixed.C156_complement_violated",
    "Verif.Flags.Mixed.C156_foreign_flags",
    "Verif.Flags.Mixed.C156_equality_partial",
    "Verif.Flags.Mixed.C156_equality_violated",
    "Verif.Flags.Mixed.C156_cast"
   ],
   "note": "C156_numbers: numbers are combined in the wider type; Proved for all expressions and programs of enumerators and flags of E (C156_sets_partial, C156_programs_partial, C156_equality_partial) under the conditions of C44 and if no other operator hides those of the library; bit fields (C156_number), conversions (C156_cast), refused types (C156_refused, C156_foreign_flags). Violated: other unscoped enumerations and all numbers (C156_foreign_violated, C156_cut_violated, C156_floating_violated), arithmetic on unscoped enumerators (C156_arithmetic_violated), hidden operators (C156_hidden_violated, C156_complement_violated), order of the operands (C156_order_violated, C156_equality_violated)."
  },
  {
   "property": "C157",
   "status": "partial",
   "theorems": [
    "Verif.EnumArray.Decl.C157_plain_partial",
    "Verif.EnumArray.Decl.C157_flags",
    "Verif.EnumArray.Decl.C157_both_violated",
    "Verif.EnumArray.Decl.C157_max_violated",
    "Verif.EnumArray.Decl.C157_after_violated",
    "Verif.EnumArray.Decl.C157_alias_violated",
    "Verif.EnumArray.Decl.C157_first_violated",
    "Verif.EnumArray.Decl.C157_empty_violated"
   ],
   "note": "Proved for enumerators without initialisers followed by Count or Max = Last (C157_plain_partial), with the link to the enumerations assumed by C44, automatic or powers of two (C157_flags). The other forms of declaration are given by their exact outcome: C157_both_violated, C157_max_violated, C157_after_violated, C157_alias_violated, C157_first_violated, C157_empty_violated."
  },
  {
   "property": "C158",
   "status": "partial",
   "theorems": [
    "Verif.Movable.Mixed.C158_programs_partial",
    "Verif.Movable.Mixed.C158_compiles",
    "Verif.Movable.Mixed.C158_moved_violated",
    "Verif.Movable.Mixed.C158_any_violated"
   ],
   "note": "Proved for all programs of MovablePtr and MovableLiteral of any types whose moves are between wrappers of one type (C158_programs_partial); what compiles: C158_compiles. Violated for every move between types (C158_moved_violated) and for copies of MovableValue of classes with unconstrained templates (C158_any_violated)."
  },
  {
   "property": "C159",
   "status": "partial",
   "theorems": [
    "Verif.FixedVector.Reent.C159_append_partial",
    "Verif.FixedVector.Reent.C159_remove",
    "Verif.FixedVector.Reent.C159_clear_partial",
    "Verif.FixedVector.Reent.C159_constructor_pop_violated",
    "Verif.FixedVector.Reent.C159_destructor_push_violated",
    "Verif.FixedVector.Reent.C159_destructor_clear_violated"
   ],
   "note": "Proved for constructors that append to any depth (C159_append_partial: order, each made once, assertion exactly when there is no room), for destructors that remove to any depth (C159_remove, exact), and for clear with such destructors (C159_clear_partial: exact condition, otherwise undefined behaviour). Violated: C159_constructor_pop_violated, C159_destructor_push_violated, C159_destructor_clear_violated, each for every vector and element of that form."
  },
  {
   "property": "C160",
   "status": "partial",
   "theorems": [
    "Verif.Threads.C160_bits_partial",
    "Verif.Threads.C160_elements",
    "Verif.Threads.C160_same_block_violated"
   ],
   "note": "C160_elements in full for vectors and arrays; C160_bits_partial for bits in different blocks, any number of threads; C160_same_block_violated for every two writes to different bits of one block (a data race, and a schedule with a lost update)."
  },
  {
   "property": "C161",
   "status": "partial",
   "theorems": [
    "Verif.MemoryPool.Threads.C161_apart_partial",
    "Verif.MemoryPool.Threads.C161_count_violated",
    "Verif.MemoryPool.Threads.C161_allocate_violated"
   ],
   "note": "C161_apart_partial for threads that keep apart (any number, any calls, any schedule); C161_count_violated for every two entries of one block freed by two threads (a data race, and a schedule that loses an update of the counter); C161_allocate_violated: two allocations that search before either marks the entry give the same entry."
  },
  {
   "property": "C162",
   "status": "partial",
   "theorems": [
    "Verif.Hash.C162_two_bits",
    "Verif.Hash.C162_short_partial",
    "Verif.Hash.C162_long_violated",
    "Verif.Hash.C162_undetected"
   ],
   "note": "C162_two_bits (equal exactly if 2^32 - 1 divides the distance), C162_short_partial (messages below 512 MiB), C162_long_violated (every longer message has an undetected change of two bits), C162_undetected (equal exactly if the generator divides the difference)."
  },
  {
   "property": "C163",
   "status": "partial",
   "theorems": [
    "Verif.Hash.C163_last_partial",
    "Verif.Hash.C163_seeds_violated",
    "Verif.Hash.C163_accumulate_violated",
    "Verif.Hash.C163_tuple_violated",
    "Verif.Hash.C163_swap",
    "Verif.Hash.C163_length_violated"
   ],
   "note": "C163_last_partial and C50_last for the last value, C163_swap for two values; C163_seeds_violated, C163_accumulate_violated and C163_tuple_violated: every other position has an undetected change, for all other values; C163_length_violated: an added value that is not noticed. On a host with a 64-bit std::size_t."
  },
  {
   "property": "C164",
   "status": "proved",
   "theorems": [
    "Verif.Hash.C164_residue",
    "Verif.Hash.C164_four_bytes",
    "Verif.Hash.C164_check",
    "Verif.Hash.C164_suffix",
    "Verif.Hash.C164_change"
   ],
   "note": "C164_residue and C164_check: the test of a message with its CRC32; C164_four_bytes: exactly one choice of four bytes for each value; C164_change: equal changes; C164_suffix: equal ends (CRC32 and FNV-1a). For the overloads that take a buffer; C49 relates the others."
  },
  {
   "property": "C165",
   "status": "proved",
   "theorems": [
    "Verif.Hash.C165_window32",
    "Verif.Hash.C165_window64",
    "Verif.Hash.C165_strings",
    "Verif.Hash.C165_four",
    "Verif.Hash.C165_seven"
   ],
   "note": "C165_window32 and C165_window64 for buffers, C165_strings for strings (if char is unsigned or the characters are ASCII; for others the overloads differ, C49_fnv_violated); C165_four and C165_seven: the limits 3 and 6 are exact, for every prefix and every suffix."
  },
  {
   "property": "C166",
   "status": "proved",
   "theorems": [
    "Verif.Hash.C166_three",
    "Verif.Hash.C166_limit",
    "Verif.Hash.C166_received"
   ],
   "note": "C166_three is the guarantee, C166_received that of a receiver that checks a message together with its CRC32, C166_limit says that 11454 bytes is the exact limit, for every longer message."
  },
  {
   "property": "C167",
   "status": "partial",
   "theorems": [
    "Verif.EnumArray.Init.C167_braces_partial",
    "Verif.EnumArray.Init.C167_expressions_partial",
    "Verif.EnumArray.Init.C167_lookup",
    "Verif.EnumArray.Init.C167_copy",
    "Verif.EnumArray.Init.C167_lists_violated",
    "Verif.EnumArray.Init.C167_single_violated",
    "Verif.EnumArray.Init.C167_empty",
    "Verif.EnumArray.Init.C167_empty_element",
    "Verif.EnumArray.Init.C167_numbers"
   ],
   "note": "C167_braces_partial (three pairs of braces), C167_expressions_partial (one and two pairs), C167_lookup in terms of operator[], C167_copy, C167_empty and C167_empty_element (zeros), C167_numbers (numbers without inner braces fill classes of numbers one after the other); C167_lists_violated: lists in braces with less than three pairs of braces are refused; C167_single_violated: a single one may be spread over two enumerators."
  },
  {
   "property": "C168",
   "status": "partial",
   "theorems": [
    "Verif.Hash.C168_crc32",
    "Verif.Hash.C168_fnv32_partial",
    "Verif.Hash.C168_fnv64_partial",
    "Verif.Hash.C168_before",
    "Verif.Hash.C168_crc32_violated",
    "Verif.Hash.C168_fnv_violated"
   ],
   "note": "C168_crc32 is exact (an equivalence); C168_fnv32_partial and C168_fnv64_partial under a condition on the hash before the zero bytes; C168_before: padding in front; C168_crc32_violated and C168_fnv_violated: parts after which zero bytes are never seen."
  },
  {
   "property": "C169",
   "status": "partial",
   "theorems": [
    "Verif.Args.Many.C169_slots_partial",
    "Verif.Args.Many.C169_values_partial",
    "Verif.Args.Many.C169_moved_twice_violated"
   ],
   "note": "C169_slots_partial: any mix of values and references, any aliasing, any order; C169_values_partial: with values only all slots get the same; C169_moved_twice_violated: signal(std::move(x), x). One parameter, with copies, moves and lifetimes, is C149."
  },
  {
   "property": "C170",
   "status": "partial",
   "theorems": [
    "Verif.Args.Many.C170_values_partial",
    "Verif.Args.Many.C170_moved_twice_violated"
   ],
   "note": "C170_values_partial: any mix of values and references, any aliasing of references, any order, any function, with the variables afterwards. C170_moved_twice_violated: ref(std::move(x), x), in both orders. One parameter, with copies and moves counted, is C150."
  },
  {
   "property": "C171",
   "status": "partial",
   "theorems": [
    "Verif.Retrieve.Multi.C171_history",
    "Verif.Retrieve.Multi.C171_entry",
    "Verif.Retrieve.Multi.C171_single",
    "Verif.Retrieve.Multi.C171_missing",
    "Verif.Retrieve.Multi.C171_again_violated"
   ],
   "note": "C171_entry, C171_single, C171_missing, C171_history; C171_again_violated: with several entries of a key the result can change after an insertion. The maps are modelled as the standard describes them; find picks any entry of the key."
  }
 ]
}
