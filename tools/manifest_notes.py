notes.update({
 "C13": "CountBits/FindFirstBit/FindLastBit for every width. The run-time builtin path sign-extends negative narrow values; CountBits and FindLastBit are wrong for every such value, by exactly the width difference (violated theorems), and right for the others. The compile-time path of CountBits on signed types: C137.",
 "C14": "Full statement and involution.",
 "C15": "SwapBytes for every buffer and size >= 1 (size 0 is undefined behaviour, shown); ByteSwap for 2, 4 and 8 bytes.",
 "C16": "All four conversions on both kinds of host.",
 "C17": "IntegralLog2 for 32-bit and narrower types and for the 64-bit values whose upper word is not 1; the 64-bit word loop returns a wrong value otherwise (violated theorem). IntegralLog2Pot is full.",
 "C18": "Unsigned types of 32 bits and more, and signed types, full; narrow unsigned types: exact condition for undefined behaviour, right result otherwise.",
 "C19": "IsPow2 and RoundToPow2 full; GetNearestPowerOfTwo diverges above the greatest power of two of the type (proved for all such values). Unsigned types; signed ones: C137.",
 "C20": "Align when the intermediate sum does not wrap, and 0 whenever it does; AlignPow2 full on unsigned types (signed ones: C137); signed Align for offsets above -alignment, and the exact wrong result below; undefined behaviour when offset + alignment leaves the type.",
 "C21": "Clamp full over any linear order; Approach when the step stays in the range of the type, and what it does whenever it leaves it.",
 "C22": "Unsigned and >= 32-bit signed full (non-negative tolerance); narrow signed types for numbers of the same sign; numbers of opposite signs always compare equal (violated theorem).",
 "C23": "Full, with the assertion on indices out of range.",
 "C24": "C24_arithmeticRightShift_wide_violated: shifts by the number of bits of the promoted type or more are undefined; C++20 path and C++17 path on arithmetic-shift compilers full; logical-shift compilers: exactly when the result is right.",
})

notes.update({
 "C01": "Refinement of every operation history (constructors, mutators, operators with aliasing, proxies, appends, stream writes) to List Bool; plus history independence and reachability of every sequence.",
 "C02": "Full.",
 "C03": "Full, with the equivalence laws.",
 "C04": "Full for 8, 16, 32 and 64-bit blocks (widths of FindFirstBit).",
 "C05": "Both round trips and the meaning of each character; other characters fail an assertion (C11_string).",
 "C06": "Full for unsigned integers; negative narrow signed integers are always sign-extended past the size (violated theorem).",
 "C07": "Exact concatenation under AppendAllowed. Outside it: with stray bits in the value, Size/Test still show the concatenation and Count is too large by exactly the stray bits (exact theorem); undefined for every append that fills a new 32/64-bit block. Unsigned types; signed ones: C139.",
 "C08": "Write, split of Write and FromPointer under WriteAllowed. Outside it: Size/Test and the position are right and Count is too large by exactly the stray bits of the last byte (exact theorem); 0 bits skip a byte, and a byte is read for them whose bits may get into the last block (violated theorems). C08_reads and C08_reads_only: exactly the bytes in which the bits lie are read.",
 "C09": "Full for bitsets with equal numbers of blocks that do not disagree (no block is smaller while another one is larger: C09_agreeing_partial; single blocks: C09_one_block_partial); this condition is exact: otherwise both a < b and b < a (C09_two_blocks_violated). No false negatives for equal block counts; what each operator computes (C09_less_exact, C09_others_exact); assertion for different block counts (violated).",
 "C10": "All laws as equality of results, plus reverse/shift duality; De Morgan for different sizes fails and is shown.",
 "C11": "In range: succeeds; out of range: assertion.  The proxy operator[] has no assertion (C11_proxy_unchecked).",
 "C12": "Full.",
 "C59": "it++ never moves the iterator: refuted for every bitset and position.",
 "C60": "Refuted for every non-empty bitset; Clear/assignment/Resize(0) repair.",
 "C61": "Full for blocks of 8 bits or more.",
})

notes.update({
 "C25": "Every allowed history (with and without fallback, every capacity), constructors, and assertions out of range; also from every vector reachable through copies and moves.",
 "C26": "Lifetime errors are failures of the model, so absence of failure is absence of lifetime errors; living objects counted; destructor leaves none.",
 "C27": "Constructors full; assignments except fallback source onto a non-empty inline target, which leaks every element of the target (violated theorem, for all such pairs); self-assignment of an inline vector loses all elements (violated). Self-move of a vector using its fallback is a self-move of std::vector (unspecified) and not covered.",
 "C28": "resize and everything that ends in the fallback; emplace_back, push_back, emplace on the inline storage leave a raw slot counted in the size, destructor undefined (violated theorem, for all such calls). Moves that throw: C115; constructors: C116.",
 "C62": "Correct while the inline storage has room and (emplace) for elements before the position; undefined on growth to the fallback and at the position, wrong value after the position (violated theorems, for all such calls).",
})

notes.update({
 "C29": "Every allowed history of every capacity refines lists; lifetimes and assertions out of range.",
 "C30": "Target always right; source and target destructible for move construction of at most one element and move assignment of equal sizes; all other cases are undefined or leak (violated theorems, for all such pairs).",
 "C31": "Full, including the NoInit constructor.",
 "C63": "As C30: the defaulted moves keep m_size in the source.",
 "C64": "resize keeps the former contents but loses the elements already constructed; emplace_back, push_back, emplace count the raw slot (violated for all calls); StackArray leaks the constructed elements (violated for all sizes).",
})

notes.update({
 "C32": "Every allowed history of every block size >= 1, with indices, addresses, contents and lifetimes; Clear on blocks of one entry is excluded (C36).",
 "C33": "Full.",
 "C34": "Full; also for a loop that frees entries while it visits them.",
 "C35": "Inverse if sizeof(T) is the distance of the entries; with a larger Alignment no index but the first of a block is found (violated theorem, for all such entries).",
 "C36": "Blocks of at least two entries, all entries in use holding objects; with blocks of one entry destruction, Clear and Reset of a pool with objects fail an assertion (violated theorem).",
 "C37": "State right after Reset; reuse fails for every pool that had an object (violated theorem): Bitset::Reset(true) is Reset(bit 1).",
 "C65": "Entry stays allocated, destructor undefined (violated theorem, for all pools); the caller can repair with Free(index, NoDestruction).",
 "C66": "Move construction full; move assignment never destroys the objects of the target (violated theorem).",
})

notes.update({
 "C38": "After every allowed history (creations, destructions, connections, disconnections, clears, moves, emissions with arbitrary callbacks); order of the calls left open, as in the code. Every allowed call has an ordinary outcome.",
 "C39": "Callbacks are arbitrary functions of the history; disconnecting callbacks: termination, once each. For arbitrary callbacks (also connecting, clearing, emitting): only connected slots are called and never after their disconnection.",
 "C40": "Full.",
 "C41": "Full, for guards on any slot of any history; the guard assignment from a Connection&& does not compile when used (compares pointers of different types) and is not modelled.",
 "C42": "If every callback connects before it disconnects and the emission ends, no connected slot is missed. Violated otherwise: a callback that disconnects its own slot and then connects makes the emission skip all others (for all signals with two slots); slots connected during the emission are called in it; emission runs forever if each callback connects.",
 "C43": "Target right and source empty if the source has had two slots at once; for a source with one slot that never had two, its next emission is undefined; target with an inline slot and source with fallback: old connection still counts as connected and disconnects a wrong slot; target with fallback and source with an inline slot: the slot is copied, both signals call it and it cannot be disconnected from the source; self-move loses the slot (violated theorems, for all such pairs).",
 "C67": "Refuted for every signal with at least two slots: the inner emission leaves the shared iterator at the end, so the outer emission stops. Proved, for all nestings of all callbacks that only emit, when each signal that may be emitted again during its own emission has at most one slot.",
})

notes.update({
 "C44": "Refinement to Finset (Fin n) for all programs; full for automatic enumerations of at most 32 enumerators (C44_history). Violated: automatic enumerators from 32 (1U << value), ~ and ^ when the maximum is 63 or more, ~ of every non-automatic enumeration (violated theorems, for all such cases).",
 "C45": "Full for automatic enumerations and for non-automatic ones of at most 32 enumerators; beyond, dereferencing is undefined (violated theorem).",
})

notes.update({
 "C46": "Affine for both signs of the stride when the byte offset fits the type it is computed in; difference and comparisons full. Violated (for all such pointers): unsigned int and size_t indices with negative strides, int and unsigned int offsets of 2 GiB and more.",
 "C68": "Positive strides; reversed for every negative stride (violated theorem).",
 "C69": "Bases at offset 0; not adjusted at any other offset (violated theorem).",
})

notes.update({
 "C47": "Full: bit by bit (all overloads) and as remainder of polynomials over GF(2).",
 "C48": "Full; resumption of hashing after a first part; FNV1a is the textbook function on all buffers.",
 "C49": "CRC32 full. FNV1a: where char is unsigned or all bytes are below 0x80; violated for every input with one byte from 0x80 where char is signed. Array overloads hash the terminating null.",
 "C50": "Full for a std::size_t of 64 bits (C50_size32_violated: not with 32 bits); variadic form injective in the last element if std::hash<std::size_t> is injective.",
 "C70": "Full.",
})

notes.update({
 "C51": "All programs over any number of results; full if copies and moves do not throw. Kept for throwing copies if moves are noexcept; otherwise an assignment can leave a result that is neither (violated theorem), and Map ends the program if the copy of an error throws (violated theorem).",
 "C71": "Result<V, E>; Result<void, E> moves from lvalues (violated theorem, for all types whose moves are observable).",
})

notes.update({
 "C52": "Full, for all sequences of moves and copies over any number of wrappers.",
 "C53": "All histories without move assignment and with functors that do not throw; both violated otherwise (theorems). Functors that use other guards or their own: C105.",
 "C54": "Both storage forms, all histories, with exceptions. Excluded and refuted: copies from empty objects, self-assignment and throwing copies for types without copy assignment or with inline storage.",
 "C72": "Construction full; assignment of a value moves from lvalues, assignment of another MovableValue moves from non-const lvalues of types with operator=(T) (violated theorems) and does not compile for types with both assignment operators.",
 "C73": "All histories over callables bound as lvalues. Excluded and refuted: later calls of a FunctionRef made from a temporary, call or copy of a null FunctionRef.",
})

notes.update({
 "C55": "Lists of any length. TypeListApply with an rvalue argument forwards it to every functor (violated theorem); partial for lvalues.",
 "C56": "Enumerations of every underlying type with Count or Max, values from 0. Enumerators below 0 have no element (violated theorem). operator+ and operator- of the iterators do not compile when used and are not modelled.",
 "C57": "Rvalues, except signed values too large for a narrower or equal unsigned type; violated for all of those, for all lvalues, and for conversions to bool (theorems). Representable values are kept in all cases.",
 "C58": "GCC up to 48 characters, Clang up to 33, MSVC up to 57; violated for every longer spelling (theorems). The form of the signature is that of the compilers, written down in the model.",
 "C74": "Integral values of the range of long long except the power of two beyond the maximum, and all fractions. Violated: that power of two, infinities, NaN and values beyond long long, which are converted (undefined) before they are checked.",
 "C75": "Only the successful direction; the check is never made (violated theorem, all hierarchies).",
 "C76": "Full.",
})

notes.update({
 "C77": "Full.",
 "C78": "Full for finite numbers and NaN, with what the rounding of the distance can change stated exactly; equal infinities compare different (violated theorem).",
 "C79": "Clamp full for total orders; bounds and Approach within the objective full. A NaN is passed on by Clamp (violated theorem). Approach reaches the objective if each step is exact; otherwise it can get stuck (violated theorem).",
 "C80": "Ends exact when the difference is representable, monotone whenever it does not overflow; in general a finite result is within 6 units of rounding of the exact interpolation (C80_lerp_error; at 1: C80_lerp_one_error). Violated: interpolation 0 with overflowing difference, interpolation 1, overshoot, a result that overflows at 1 although the difference does not (C80_lerp_one_overflow_violated), unsigned integers downwards.",
 "C81": "Run time full; integers full; constant expressions for exactly representable intermediate results. Violated in general: rounded quotients, infinite divisors, quotients beyond long long.",
 "C82": "Exact and one-rounding cases, monotone; the result depends on the platform (violated theorem).",
 "C83": "float and double; violated for long double of 80 bits, whose constants are literals of type double.",
 "C84": "Integers and MaxValue full. MinValue of floating-point types is the least positive normal number (violated theorem; partial theorem says what it is).",
 "C85": "float and double, all angles. The bound is relative to the exact angle, or to the smallest number with all its digits where the result is below it (64 times that number for the round trip). Results that do not fit are infinities (C85_radianToDegree_overflow; between the two bounds, within four units of the last place of the end of the range, either may happen).",
})

notes.update({
 "C86": "Disabled: all programs. Enabled: all programs in which no assertion is directly followed by `else`; violated for all of those (theorem).",
 "C87": "Full, for printf formats of the conversions %s, %d and %%.",
 "C88": "Rvalues: values out of range, infinities and NaN are reported, values of the type kept. Violated: values in range that are no values of the type are rounded without report, lvalues are not checked, integers are not checked.",
 "C89": "Full, with std::hash as an arbitrary function of the characters.",
 "C90": "Full; paths relative to the platform's conversion, which is spelled out for POSIX (identity) and Windows (separators).",
 "C91": "All histories whose casts go to classes the object has and through which it may be destroyed. Violated: casts to other classes are undefined instead of reported, casts to bases without virtual destructor are accepted.",
})

notes.update({
 "C92": "All histories without self-assignment; a result that does not fit in the blocks of the container fails an assertion, exactly. Violated: the bound is (Capacity+7)/8 blocks, not bits, so sizes beyond Capacity are accepted with blocks wider than a byte; self-assignment loses the bits.",
})

notes.update({
 "C93": "Exact characterisation over every type; the traits are right wherever they exist. Violated (does not compile): noexcept function types, qualified function types, C variadic parameter lists, volatile pointers.",
 "C94": "Exact characterisation. Violated: function pointers and references have traits but do not satisfy Functor; noexcept, qualified and variadic function types satisfy Functor but have no traits.",
 "C95": "Exact characterisation over every overload set, never a wrong function. Violated: overloads that differ in const or reference qualifiers only cannot be told apart, volatile and C variadic functions cannot be selected.",
})

notes.update({
 "C96": "C38-C43 range over histories that contain emissions ended by exceptions as well; C96_no_throw shows that the two models of an emission agree when nothing is thrown.",
})

notes.update({
 "C97": "Proved for all operations except AppendBits and Write over every history; these two are violated: the size grows before the block is allocated, the last bit can then not be read (undefined behaviour). Resizing to the old size repairs the bitset.",
})

notes.update({
 "C98": "Proved: objects, indices, addresses, iteration, Free, Clear and the destructor over every history with failures. Violated: a failure after emplace_back leaves a block without entries that is counted as free; when all other entries are in use, Allocate fails with an assertion or uses a null pointer, even with enough memory.",
})

notes.update({
 "C99": "Proved: the value appended, and the moved-from source as long as the inline storage takes the element. Violated: with the fallback in use, or when the call changes to the fallback, the element is copied and the source keeps it; move assignment to a vector that uses its fallback copies every element.",
})

notes.update({
 "C100": "Proved for emplace_back, insert, resize, reserve, copy and move construction, and for histories. Violated: push_back of elements that do not throw when copied is noexcept and ends the program; copy assignment to a vector that uses its fallback of one that does not loses the elements (or ends the program); move assignment of the same kind gives up its buffer and ends the program if it gets no other.",
 "C101": "Proved except for reserve(n) on a vector that uses its fallback, n at most the inline capacity and more than capacity(): the request is ignored (violated).",
 "C102": "Proved; addresses are those of the storage (inline, or a buffer that is identified by the allocation that made it) and the index.",
})

notes.update({
 "C103": "Proved for size expressions without side effects whose size in bytes fits in size_t. Violated: the macro evaluates the expression two or three times (with i++ the capacity may exceed the buffer), and a size in bytes that wraps around (also a negative number) gives a buffer smaller than the capacity; the following calls write outside the buffer. Not modelled: the alignment of alloca for over-aligned types.",
 "C104": "Proved: usable until the function returns, and given back then. Violated beyond: a stack vector moved or returned to the caller is dangling, and the memory is not given back at the end of a block (a loop uses the memory of all its iterations).",
})

notes.update({
 "C105": "Proved for functors that use guards declared before their own. Violated for functors that use their own guard: CallAndReset (directly or through other guards) recurses for ever because the functor is called before it is given up; Reset destroys the running functor, so going on is undefined.",
})

notes.update({
 "C106": "Proved when the conversion is part of the same expression, and when the argument is left as it is until the conversion. Violated otherwise: the object returned by Ok or Err holds a reference to its argument, so it dangles once the argument (for instance a temporary) has ended, shows later changes, and gives a moved-from value when converted twice.",
})

notes.update({
 "C107": "Proved, except that a bitset that never had more bits (or room) than its inline blocks loses them when assigned to itself. C107_container proves that the container model used is that of FixedVector with a fallback.",
})

notes.update({
 "C108": "The fuel argument bounds the number of iterations; any bound from the length on gives the result. Reallocation inside the fallback std::vector is not modelled: the iterators used in the loops are always those returned by the last call.",
 "C109": "For vectors whose elements are inline; for references into the fallback the rules of std::vector apply and are not modelled.",
})

notes.update({
 "C110": "Partial because the code violates it: C110_self_disconnect_violated and C110_self_clear_violated show undefined behaviour after every history; the _partial theorems are under the guard that callbacks use captures first.",
 "C111": "One argument, a number; the callbacks that assign to it do nothing to signals. The order in which slots are called after disconnections is any, as in C38.",
})

notes.update({
 "C112": "Unions, bit-fields, pointers and over-aligned types are not in the model; the round trip is partial because padding loses the value (C112_padding_violated) and bool has bytes that are no value (C112_bool_violated).",
 "C113": "The layout of structures is that of the usual ABIs, as a part of the model. NazaraOffsetOf names a member of an object at the null pointer, which is undefined by the standard; the model has what compilers compute.",
 "C114": "The maps are std::map or std::unordered_map, modelled as the standard describes them (stable nodes); multimaps are C171.",
})

notes.update({
 "C115": "erase and erase(first, last) full. emplace, insert and growth into the fallback hold for the first move only; each other move is covered by a violated theorem, as are the noexcept move constructor and move assignment (the program ends).",
 "C116": "Holds for elements in the fallback; every other exception point is covered by a violated theorem (a leak, or undefined behaviour in the destructor). Copy assignment from a source using its fallback is the one of std::vector and not covered.",
})

notes.update({
 "C117": "Full, by induction over the nested emissions; Complete (SpecNested.lean) is the specification of the events.",
})

notes.update({
 "C118": "Disconnect full. Clear and ~Signal under the guard that the callbacks of the signal own no guards of other slots of it; violated for every signal with two slots otherwise (the vector of slots is used while it is being cleared). Emissions during which such slots are disconnected: C135.",
 "C119": "Connect and Connection::Connect full. Violated, in all other cases than those of the partial theorems: ConnectionGuard::Connect (the old slot is lost), move assignment to a signal that had two slots of one that has one and never had two (noexcept).",
})

notes.update({
 "C120": "Full, Clear in a body excepted (violated: the iterator refers to a block that does not exist any more).",
 "C121": "Free full (for roots of trees). Destructor and Clear (blocks of at least two entries) under the guard that roots come first, which is exact: in all other cases they fail. Destructors that allocate: C128.",
})

notes.update({
 "C122": "push_back, emplace_back, resize full; emplace and insert for elements before the position; undefined at the position, wrong value after it (violated theorem, all such calls).",
 "C123": "erase and erase(first, last) full. emplace and insert for the first move; each other move is covered by the violated theorem.",
})

notes.update({
 "C124": "full for objects that are not moved and hold their guards; connections without guard and moved objects are covered by the violated theorems (all such programs). The member function is the same for all slots of an object; signals are not destroyed or moved during emissions.",
})

notes.update({
 "C125": "The link between the model of signals (list and flag) and the model of FixedVector: each operation that is defined in the former is a defined sequence of calls in the latter with corresponding results.",
})

notes.update({
 "C126": "C126_calls: nested calls are reduced to a flat history, so that C32-C37, C120 and C121 apply.  The trees are those whose nodes are all made by constructors and freed with their roots; trees that are changed afterwards may break the order that the destructor needs (C121_destroy_violated).  Destructors that allocate: C128: Reset keeps a reference into the vector of blocks.",
})

notes.update({
 "C127": "Refuted for the signal being emitted: destroying it in a callback is undefined behaviour at ++m_slotIterator (C127_destroy_violated), moving its slots away ends the emission, the other slots are not called although connected (C127_move_violated).  Proved for all programs that neither destroy a signal nor move from it during its own emission (and use moves as in C43).  The exactness of an emission is proved for emissions during which the signal is not cleared, emitted or moved, and where no callback disconnects a slot of the signal and then connects one (C42_skips_violated, C67_recursive_violated are the reasons).  Programs that do not end are cut off by fuel: the theorems speak about those that end.",
})

notes.update({
 "C128": "Free full (C128_free). Clear and the destructor (blocks of at least two entries) for one object that allocates one object: exact condition, outside of which they fail or lose the new object (C128_destroy_violated, all such pools); C128_quiet_partial: no object allocates.  Any number of objects that allocate any numbers of others, to any depth: C128_exact gives the exact condition (Clean) in terms of the contents of the pool, C128_many_partial a condition on the objects that are there.",
})

notes.update({
 "C129": "Full, for the statements that compile (assignment of a Connection&& to a guard does not).  Emissions in between have any callbacks of C39 and C96, which disconnect slots, not variables; callbacks that own guards are in C118 and C124.  Uses of signals and guards that have ended are undefined (C129_ended, C129_ended_guard).",
})

notes.update({
 "C130": "Full for unsigned integers and texts of 0 and 1; calls are allowed as in C01.  The stream has no width or fill set.",
})

notes.update({
 "C131": "Violated for arrays of char that are not const: they select the template for arrays, which hashes the whole array with the null and what follows it (C131_array_exact, C131_array_violated: the exact texts for which the hash is the same nevertheless); literals select the overload of C strings.  FNV-1a also needs characters that are not negative (C49).",
})

notes.update({
 "C132": "Proved for emissions that do not overlap (Locked: any schedule in which an emission begins only when no other is in progress); violated otherwise: operator() const writes to the shared mutable iterator (two violated theorems, for all signals).  The model is sequentially consistent with one access per step, in favour of the code; by the standard, overlapping emissions are a data race in every case.",
})

notes.update({
 "C133": "A floating-point value passed or returned is assumed to keep its bits (SSE2, NEON); the x87 unit, which makes signalling NaNs quiet, is not modelled.  C133_values shows that the values of the objects are exactly those of the floating-point model of the other properties.",
})

notes.update({
 "C134": "Partial because of the bodies that shorten the bitset to the current index or less, for which the loop fails its assertion (C134_shrink_violated, for every bitset with a set bit); full for all other bodies.",
})

notes.update({
 "C135": "Safety and the order of the disconnections for callbacks that connect, disconnect, emit, and clear signals of which no callback owns guards of other slots (C135_safe_partial); violated for Clear of any signal with two slots otherwise (C135_clear_violated). Also partial: that every slot that stays connected is called is proved for callbacks that only disconnect, and, if the emission ends, for callbacks that connect first (C135_connecting_partial; false in general, see C42 and C67).",
})

notes.update({
 "C136": "Equal and different hashes for all programs of C44 (same guards); the hash cannot be called on a const function object, so std::unordered_set and std::unordered_map with the default hash do not compile (C136_const_violated: the model says when a call compiles, and the theorem follows from it at once).",
})

notes.update({
 "C137": "Each function under an exact guard; the violated theorems cover every value outside it: undefined behaviour of IsPow2 on the least value (32 bits and more), of AlignPow2 when offset + alignment overflows, of RoundToPow2 on the least value and above the greatest power of two (narrow types: a negative result), GetNearestPowerOfTwo above the greatest power of two does not end in C++20 and is undefined before, CountBits in constant expressions undefined on all negative values of 32 and 64 bits.",
})

notes.update({
 "C138": "Overload resolution among the constructors for every argument and class hierarchy; effects after every history through C54. Not proved because false: volatile PrivateImpl (no constructor), objects of classes derived from PrivateImpl, pointers to classes derived from T on the heap (violated theorems, for all such arguments). Conversion functions of unrelated classes are not modelled.",
})

notes.update({
 "C139": "Exact result for every value and every number of bits up to the width of the type; the values that are not negative for any number of bits. Violated for every negative value that is appended completely and leaves free bits in the last block. Negative values with more bits than the type has: exact result (C139_wide_exact); zeros follow, as documented, exactly when the bits of a type not wider than a block end with a block (C139_wide_partial, C139_wide_violated). Same condition on sizes as C07.",
})

notes.update({
 "C140": "Refinement to direct calls, by induction on the depth of nesting and on the program. Excluded as in C73: dead callables, calls and copies of null FunctionRefs.",
})

notes.update({
 "C141": "False in the code in two cases: a MemoryPool may be given an Alignment below alignof(T) (no static assertion), and the macros of StackArray and StackVector ask alloca or operator new for memory by its size alone, so types with a greater alignment than these give are misplaced (C141_memoryPool_violated, C141_stack_violated). Proved otherwise. For PrivateImpl the static assertions accept exactly the types that fit; a type may be larger than BufferSize if the padding suffices (C141_privateImpl_padding).",
})

notes.update({
 "C142": "False in the code for values that are Results themselves: if passed as rvalues or const lvalues the constructor that converts Results is the more specialised template, so that Result<Result<T, E>, E> made from a failed Result<T, E> has failed itself, and does not compile if T has no default constructor (C142_nested_violated, C142_nested_default_violated; to any depth C142_tower_violated). Conversions between Results do not compile if the value to make has no default constructor, for example if it is a Result<void, E>, although std::is_convertible holds (C142_convert_default_violated). Proved for other values, for other ways to pass, and for conversions between Results. If V and E are the same type there is no conversion from a value, by design (C142_same_types). Throwing conversions: C51.",
 "C143": "False in the code for V = void: Result<void, E> initialises a std::optional<E> with the arguments, so that no arguments, std::nullopt or an empty std::optional make a success, and several arguments do not compile (C143_void_default_violated, C143_void_optional_violated, C143_void_several_violated). Proved for one ordinary argument, with std::in_place, and for V not void.",
})

notes.update({
 "C144": "False in the code for generic handlers: a handler for const T& beside a generic one for auto&& is called only if the variant is a const lvalue, otherwise the generic handler takes T as well (C144_generic_violated). Proved without generic handlers, and with generic handlers in all other cases: beside handlers that take their type by value, by T& or T&&, and by const T& unless the generic one is for auto&& (C144_generic_partial, C144_generic_ref_partial, C144_generic_const_partial). Overload resolution is modelled for one argument; derived classes and templates other than auto are not.",
 "C145": "False in the code for a class that was asked about before its definition: the answer stays false after it (C145_late_violated; formally such a program is ill-formed without a diagnostic). Proved exactly: the answer is whether the type was complete at the first use (C145_first_use), hence right if no first use precedes the definition (C145_isComplete_partial). References do not compile (C145_reference). One translation unit only.",
})

notes.update({
 "C146": "False in the code in two cases: UnboundedReset(i) and UnboundedSet(i, false) do not enlarge the bitset, other than their documentation says (C146_false_violated; UnboundedTest cannot tell the difference, C146_unboundedReset_seen), and UnboundedSet(npos) computes npos + 1 = 0, clears the bitset and fails the assertion of Set (C146_npos_violated, all bitsets). Proved for all other indices and values.",
})

notes.update({
 "C147": "The vector is modelled by its blocks and its capacity; it asks for memory only to hold more blocks than its capacity, and takes any count that suffices. Constructors, assignments, Swap and the binary operators give a variable another vector: they may come anywhere in the history before, with any new capacity, but are not among the operations in place. (The remark at PerformsAND/OR/XOR that the capacity is set to the largest of the two bitsets is meant for the size: the capacity stays if it suffices, C147_reserved.)",
})

notes.update({
 "C148": "Callbacks that emit the same signal again are excluded (for these: C39_safe, C67, C117).",
})

notes.update({
 "C149": "One parameter (the others are treated alike); the order of the calls and who is called: C38-C42. Violated: a signal with a parameter T&&, or with a by-value parameter of a type that can only be moved, cannot be emitted, since operator() passes the names of its parameters, which are lvalues (C149_rvalue_reference_violated, C149_move_only_violated: all such signals; C149_compiles: exactly which can be emitted). C149_member: the overloads of Connect for member functions.",
 "C150": "One parameter, without conversions between types; several parameters are C170.",
})

notes.update({
 "C151": "Proved for lvalues that are not const (C151_lvalue), and for rvalues of callables without ref-qualified operators (or with const &), among them all lambdas and functions (C151_unqualified_partial); which callables are refused: C151_refused; what is called in general: C151_named. Violated: for const callables the constructor is selected but its body does not compile (reinterpret_cast<void*> of a const pointer; C151_const_violated: all that can be called), the same for callables that can only be called as rvalues (C151_rvalue_only_violated), and with an operator() for lvalues and one for rvalues the first is called (C151_rvalue_other_violated). Not modelled: volatile, variadic operators, pointers to members.",
 "C152": "Proved for FunctionRefs of the same signature, and for other ones as long as the source is neither written to nor ended (C152_history_partial: all such histories, chains of any length). Violated otherwise: a FunctionRef of another signature keeps the address of the source, so that it follows later assignments (C152_rebound_violated), dangles when the source ends (C152_ended_violated), and two of them assigned to each other call each other without end (C152_cycle_violated).",
})

notes.update({
 "C153": "Which constructor v(a, b) calls, in all cases: C153_paren; the sequences made: C153_count_partial, C153_range, C153_size, C153_list, C153_empty; in braces: C153_brace_count. Violated: the constructor from a range has no constraint on its iterator type, so v(3, 5) for FixedVector<int, N> selects it and does not compile (C153_count_violated: all arguments of the same type, unless it is both the size type and T). Not modelled: arguments that are vectors, initializer lists or braced lists.",
})

notes.update({
 "C154": "C154_fill_text_violated and C154_fill_floating_violated: texts and floating point numbers as the value or number of bits; C154_prefix_refused: strings and views with a number of characters do not compile; Proved for texts of type const char*, std::string and std::string_view (C154_text_partial), integers (C154_integer, C154_zero_bool; negative ones narrower than a block: C06), counts and values (C154_fill_partial, C154_sizeValue), prefixes of texts (C154_prefix). Violated: Bitset(T) has no constraint and is preferred to every conversion, so char*, arrays of char and all other classes that convert to a text do not compile (C154_other_text_violated), texts are accepted as implicit conversions that do not compile (C154_convert_violated), everything is accepted by overload resolution (C154_accepts_violated), floating point numbers are silently truncated (C154_floating_violated), and Bitset(0, v) is ambiguous or reads a null pointer (C154_fill_violated). Not modelled: classes that convert to numbers, braces.",
})

notes.update({
 "C155": "Proved for comparisons whose right operand converts to the type of the left one (C155_compare_partial; plain pointers: C155_compare_raw), for differences of the same type (C155_difference_partial), for strides of type int, std::size_t and types that promote to int (C155_stride_partial). Violated: the other order of comparisons (C155_compare_violated), all differences of two types (C155_difference_violated: the template for integers is preferred), conversions accepted for all types (C155_convert_violated), strides of other types (C155_stride_violated). C++17 rules; base classes at an offset: C69.",
})

notes.update({
 "C156": "C156_numbers: numbers are combined in the wider type; Proved for all expressions and programs of enumerators and flags of E (C156_sets_partial, C156_programs_partial, C156_equality_partial) under the conditions of C44 and if no other operator hides those of the library; bit fields (C156_number), conversions (C156_cast), refused types (C156_refused, C156_foreign_flags). Violated: other unscoped enumerations and all numbers (C156_foreign_violated, C156_cut_violated, C156_floating_violated), arithmetic on unscoped enumerators (C156_arithmetic_violated), hidden operators (C156_hidden_violated, C156_complement_violated), order of the operands (C156_order_violated, C156_equality_violated).",
})

notes.update({
 "C157": "Proved for enumerators without initialisers followed by Count or Max = Last (C157_plain_partial), with the link to the enumerations assumed by C44, automatic or powers of two (C157_flags). The other forms of declaration are given by their exact outcome: C157_both_violated, C157_max_violated, C157_after_violated, C157_alias_violated, C157_first_violated, C157_empty_violated.",
})

notes.update({
 "C158": "Proved for all programs of MovablePtr and MovableLiteral of any types whose moves are between wrappers of one type (C158_programs_partial); what compiles: C158_compiles. Violated for every move between types (C158_moved_violated) and for copies of MovableValue of classes with unconstrained templates (C158_any_violated).",
})

notes.update({
 "C159": "Proved for constructors that append to any depth (C159_append_partial: order, each made once, assertion exactly when there is no room), for destructors that remove to any depth (C159_remove, exact), and for clear with such destructors (C159_clear_partial: exact condition, otherwise undefined behaviour). Violated: C159_constructor_pop_violated, C159_destructor_push_violated, C159_destructor_clear_violated, each for every vector and element of that form.",
})

notes.update({
 "C160": "C160_elements in full for vectors and arrays; C160_bits_partial for bits in different blocks, any number of threads; C160_same_block_violated for every two writes to different bits of one block (a data race, and a schedule with a lost update).",
})

notes.update({
 "C161": "C161_apart_partial for threads that keep apart (any number, any calls, any schedule); C161_count_violated for every two entries of one block freed by two threads (a data race, and a schedule that loses an update of the counter); C161_allocate_violated: two allocations that search before either marks the entry give the same entry.",
})

notes.update({
 "C162": "C162_two_bits (equal exactly if 2^32 - 1 divides the distance), C162_short_partial (messages below 512 MiB), C162_long_violated (every longer message has an undetected change of two bits), C162_undetected (equal exactly if the generator divides the difference).",
})

notes.update({
 "C163": "C163_last_partial and C50_last for the last value, C163_swap for two values; C163_seeds_violated, C163_accumulate_violated and C163_tuple_violated: every other position has an undetected change, for all other values; C163_length_violated: an added value that is not noticed. On a host with a 64-bit std::size_t.",
})

notes.update({
 "C164": "C164_residue and C164_check: the test of a message with its CRC32; C164_four_bytes: exactly one choice of four bytes for each value; C164_change: equal changes; C164_suffix: equal ends (CRC32 and FNV-1a). For the overloads that take a buffer; C49 relates the others.",
})

notes.update({
 "C165": "C165_window32 and C165_window64 for buffers, C165_strings for strings (if char is unsigned or the characters are ASCII; for others the overloads differ, C49_fnv_violated); C165_four and C165_seven: the limits 3 and 6 are exact, for every prefix and every suffix.",
})

notes.update({
 "C166": "C166_three is the guarantee, C166_received that of a receiver that checks a message together with its CRC32, C166_limit says that 11454 bytes is the exact limit, for every longer message.",
})

notes.update({
 "C167": "C167_braces_partial (three pairs of braces), C167_expressions_partial (one and two pairs), C167_lookup in terms of operator[], C167_copy, C167_empty and C167_empty_element (zeros), C167_numbers (numbers without inner braces fill classes of numbers one after the other); C167_lists_violated: lists in braces with less than three pairs of braces are refused; C167_single_violated: a single one may be spread over two enumerators.",
})

notes.update({
 "C168": "C168_crc32 is exact (an equivalence); C168_fnv32_partial and C168_fnv64_partial under a condition on the hash before the zero bytes; C168_before: padding in front; C168_crc32_violated and C168_fnv_violated: parts after which zero bytes are never seen.",
})

notes.update({
 "C169": "C169_slots_partial: any mix of values and references, any aliasing, any order; C169_values_partial: with values only all slots get the same; C169_moved_twice_violated: signal(std::move(x), x). One parameter, with copies, moves and lifetimes, is C149.",
})

notes.update({
 "C170": "C170_values_partial: any mix of values and references, any aliasing of references, any order, any function, with the variables afterwards. C170_moved_twice_violated: ref(std::move(x), x), in both orders. One parameter, with copies and moves counted, is C150.",
})

notes.update({
 "C171": "C171_entry, C171_single, C171_missing, C171_history; C171_again_violated: with several entries of a key the result can change after an insertion. The maps are modelled as the standard describes them; find picks any entry of the key.",
})
