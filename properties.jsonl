{"id": "C01", "title": "A bitset behaves as a finite sequence of booleans under any history of operations", "statement": "Take any bitset obtained from the constructors (default, (n, value), string) by any finite sequence of Resize, Set/Reset/Flip (all bits or one bit), UnboundedSet/UnboundedReset, SetBlock, ShiftLeft/ShiftRight, Reverse, Clear, AND/OR/XOR/NOT with other such bitsets and string assignment, all called within their documented index ranges. No call fails, and afterwards GetSize() and Test(i) for every i < GetSize() are those of a plain sequence of booleans on which the same operations were done one boolean at a time.", "quantifier": "every block width 2^k (8..64 included), every finite history, every index and argument in range", "why_tests_cant": "The state space (sizes x contents x histories) is unbounded; stale bits left behind the logical end by one operation only become visible some operations later (Count, ==, Resize), so sampling single operations cannot exclude them.", "anchors": ["include/NazaraUtils/Bitset.inl: Resize, Set, Reset, Flip, UnboundedSet, UnboundedReset, SetBlock, ShiftLeft, ShiftRight, Reverse, Clear, PerformsAND/OR/XOR/NOT, ResetExtraBits"]}
{"id": "C02", "title": "Bitset observers depend only on the logical bits", "statement": "After any history as in C01, Count() is the number of i with Test(i), TestAny()/TestNone()/TestAll() say whether some/no/every bit is set, GetBlockCount() is ceil(GetSize()/bits per block), and Intersects(other) holds exactly when some index is set in both. In particular two bitsets with the same logical bits are indistinguishable by these observers whatever their histories.", "quantifier": "every block width, every reachable bitset (pair of bitsets for Intersects)", "why_tests_cant": "Depends on the absence of stray bits past the end in every reachable state.", "anchors": ["include/NazaraUtils/Bitset.inl: Count, TestAll, TestAny, TestNone, Intersects, GetBlockCount, GetLastBlockMask"]}
{"id": "C03", "title": "Bitset equality is extensional and an equivalence", "statement": "For bitsets with any histories, a == b holds exactly when they agree on every bit index, the shorter one being read as false past its end; hence == is reflexive, symmetric and transitive and != is its negation.", "quantifier": "every block width, every triple of reachable bitsets of any sizes", "why_tests_cant": "Quantifies over pairs/triples of histories of unbounded length.", "anchors": ["include/NazaraUtils/Bitset.inl: operator==, operator!="]}
{"id": "C04", "title": "FindFirst/FindNext/IterBits enumerate exactly the set bits in ascending order", "statement": "FindFirst() returns the least set index or npos if there is none; FindNext(i) (i < size) the least set index greater than i or npos; iterating IterBits() with pre-increment terminates and yields precisely the set indices, each once, in increasing order.", "quantifier": "every block width, every reachable bitset, every index", "why_tests_cant": "Block boundaries and runs of empty blocks of any length; termination for every size.", "anchors": ["include/NazaraUtils/Bitset.inl: FindFirst, FindNext, FindFirstFrom, IterBits, BitIterator::operator++"]}
{"id": "C05", "title": "Bitset string conversion round-trips", "statement": "For every string s of '0'/'1' characters Bitset(s).ToString() == s and bit i of Bitset(s) is character |s|-1-i; for every bitset b, Bitset(b.ToString()) has the size and bits of b.", "quantifier": "every string over {0,1} of any length, every reachable bitset, every block width", "why_tests_cant": "All lengths, all contents.", "anchors": ["include/NazaraUtils/Bitset.inl: Bitset(const char*, size_t), ToString"]}
{"id": "C06", "title": "Bitset integer conversion", "statement": "For a bitset of at most BitCount<T> bits To<T>() is the number whose binary digits are the bits of the bitset; and constructing a bitset from an unsigned integer v yields a bitset whose bits are the binary digits of v (bits past its end read as zero), so Bitset(v).To<T>() == v.", "quantifier": "every block width, every integer width T, every value", "why_tests_cant": "2^64 values times widths; the wide and the narrow code paths differ.", "anchors": ["include/NazaraUtils/Bitset.inl: To, Bitset(T value)"]}
{"id": "C07", "title": "AppendBits appends exactly the requested low bits", "statement": "AppendBits(v, n) on any bitset b enlarges it by n bits, leaves the existing bits unchanged, sets the new bit size+i to bit i of v for i < n (zero past the width of v) and leaves no bit set past the new size (Count, == and later enlargements are as for the boolean sequence).", "quantifier": "every block width, every integer width and value, every n, every bitset", "why_tests_cant": "Alignment of the old size, n versus block width versus integer width: unboundedly many combinations, several of which involve shifts by the whole type width.", "anchors": ["include/NazaraUtils/Bitset.inl: AppendBits"]}
{"id": "C08", "title": "Write/FromPointer copy a bit stream", "statement": "Write(sequence, n) appends the n bits that follow the bit position of the sequence (least significant bit first) and returns the position of the next unread bit, so consecutive Write calls append the same bits as a single one; FromPointer(p, n) is the bitset of the first n bits at p.", "quantifier": "every block width, every byte sequence, every start offset and every split of n", "why_tests_cant": "All splits of all streams at all alignments.", "anchors": ["include/NazaraUtils/Bitset.inl: Write, FromPointer"]}
{"id": "C09", "title": "Bitset ordering compares the represented binary numbers", "statement": "a < b holds exactly when the binary number represented by a is smaller than that of b, whatever their sizes; <=, > and >= are the matching total-order relations.", "quantifier": "every block width, every pair of bitsets", "why_tests_cant": "Pairs of arbitrary sizes; order axioms quantify over triples.", "anchors": ["include/NazaraUtils/Bitset.inl: operator<, operator<=, operator>, operator>="]}
{"id": "C10", "title": "Shifts and boolean operators obey their algebraic laws", "statement": "ShiftLeft(a) then ShiftLeft(b) equals ShiftLeft(a+b) (same for right), a ^ a has no set bit, ~~a == a, AND/OR are commutative, associative and idempotent, De Morgan holds for equal sizes, compound assignment (also with the operand aliasing the target) gives the same result as the binary operator.", "quantifier": "every block width, every bitset, every shift amount", "why_tests_cant": "Algebraic laws over all values, including in-place aliasing of source and destination blocks.", "anchors": ["include/NazaraUtils/Bitset.inl: ShiftLeft, ShiftRight, operator&=, operator|=, operator^=, operator~, operator<<, operator>>"]}
{"id": "C11", "title": "Calls outside the documented index range of a bitset are caught", "statement": "Test, Set, Reset(bit), FindNext, GetBlock and SetBlock fail an assertion exactly when their index is out of range (with assertions enabled) and never read or write outside the storage otherwise.", "quantifier": "every bitset, every index", "why_tests_cant": "Needs every index on every size.", "anchors": ["include/NazaraUtils/Bitset.inl: Test, Set, FindNext, GetBlock, SetBlock"]}
{"id": "C12", "title": "Bit proxies affect only their own bit", "statement": "b[i] = v, |=, &=, ^=, -=, Flip, Set, Reset through the proxy returned by the non-const operator[] change bit i as the boolean operation says and no other bit and not the size.", "quantifier": "every block width, every bitset, every i < size, every boolean", "why_tests_cant": "All bit positions and contents, with masks computed through integer promotion.", "anchors": ["include/NazaraUtils/Bitset.inl: Bit::Set, Bit::Flip, Bit::operator|=, &=, ^=, -=, operator[]"]}
{"id": "C13", "title": "CountBits, FindFirstBit and FindLastBit agree with the bits of the value", "statement": "For every unsigned value, CountBits is the number of set bits, FindFirstBit (FindLastBit) is one plus the index of the lowest (highest) set bit and 0 for 0; the compile-time and run-time paths agree. For signed values they are those of the two's-complement representation of the same width.", "quantifier": "every integer width, every value", "why_tests_cant": "2^64 values.", "anchors": ["include/NazaraUtils/MathUtils.inl: CountBits, FindFirstBit, FindLastBit"]}
{"id": "C14", "title": "ReverseBits mirrors the bits of a value", "statement": "Bit i of ReverseBits(v) is bit w-1-i of v; ReverseBits is an involution.", "quantifier": "every width that is a multiple of 8, every value", "why_tests_cant": "2^64 values.", "anchors": ["include/NazaraUtils/MathUtils.inl: ReverseBits, BitReverseTable256"]}
{"id": "C15", "title": "ByteSwap/SwapBytes mirror the bytes of a value", "statement": "Byte i of ByteSwap(v) is byte n-1-i of v, it is an involution, agrees with SwapBytes on the object representation, and SwapBytes on a buffer of n >= 1 bytes reverses it without touching anything else.", "quantifier": "every width, every value, every buffer length", "why_tests_cant": "2^64 values, all buffer lengths.", "anchors": ["include/NazaraUtils/MathUtils.inl: ByteSwap, SwapBytes"]}
{"id": "C16", "title": "Endianness conversions round-trip and produce the announced byte order", "statement": "HostToBigEndian/HostToLittleEndian produce a value whose bytes in memory are the big/little endian digits of the argument on either kind of host; BigEndianToHost(HostToBigEndian(v)) == v and likewise for little endian.", "quantifier": "both host byte orders, every width, every value", "why_tests_cant": "A given test machine has a single byte order.", "anchors": ["include/NazaraUtils/Endianness.inl"]}
{"id": "C17", "title": "IntegralLog2 is the floor of the binary logarithm", "statement": "IntegralLog2(v) = floor(log2 v) for every v > 0 and 0 for v = 0; IntegralLog2Pot(2^k) = k.", "quantifier": "every value of every width up to 64 bits", "why_tests_cant": "2^64 values; multiply-and-lookup tables.", "anchors": ["include/NazaraUtils/MathUtils.inl: IntegralLog2, IntegralLog2Pot, Detail::IntegralLog2"]}
{"id": "C18", "title": "IntegralPow is exponentiation", "statement": "IntegralPow(b, e) is b^e modulo 2^w for unsigned types, and for signed types b^e whenever that is representable without an intermediate overflow.", "quantifier": "every base, every exponent, every width", "why_tests_cant": "Unbounded exponents.", "anchors": ["include/NazaraUtils/MathUtils.inl: IntegralPow"]}
{"id": "C19", "title": "Powers of two: IsPow2, RoundToPow2 and GetNearestPowerOfTwo", "statement": "IsPow2(v) holds exactly for the powers of two; RoundToPow2(v) and GetNearestPowerOfTwo(v) are the least power of two >= v whenever that is representable, for every v >= 1, and terminate for every v.", "quantifier": "every value of every width", "why_tests_cant": "2^64 values; termination.", "anchors": ["include/NazaraUtils/MathUtils.inl: IsPow2, RoundToPow2, GetNearestPowerOfTwo"]}
{"id": "C20", "title": "Align/AlignPow2 return the next multiple", "statement": "For alignment > 0, Align(offset, alignment) is the least multiple of alignment that is >= offset, for every offset for which that is representable, and AlignPow2 agrees with Align when alignment is a power of two.", "quantifier": "every offset and alignment of every integer type", "why_tests_cant": "2^128 argument pairs.", "anchors": ["include/NazaraUtils/MathUtils.inl: Align, AlignPow2"]}
{"id": "C21", "title": "Clamp and Approach stay within their bounds", "statement": "Clamp(v, lo, hi) with lo <= hi lies in [lo, hi] and equals v when v already does; Approach(v, objective, increment) moves v towards objective by at most increment, never overshoots it, and repeated calls with increment > 0 reach it.", "quantifier": "every value; every number of iterations", "why_tests_cant": "All triples and iteration counts.", "anchors": ["include/NazaraUtils/MathUtils.inl: Clamp, Approach"]}
{"id": "C22", "title": "NumberEquals tests |a - b| <= tolerance", "statement": "For integral types and a non-negative tolerance, NumberEquals(a, b, maxDifference) holds exactly when the mathematical distance between a and b is at most maxDifference, without overflow for any pair.", "quantifier": "every pair and tolerance of every integer type", "why_tests_cant": "Overflow only for extreme pairs; 2^192 argument triples.", "anchors": ["include/NazaraUtils/MathUtils.inl: NumberEquals, Detail::NumberEquals"]}
{"id": "C23", "title": "SetBit/ClearBit/ToggleBit/TestBit act on one bit", "statement": "For bit < width, SetBit, ClearBit and ToggleBit change exactly that bit (to 1, to 0, to its negation) and TestBit reads it.", "quantifier": "every width, value and bit index", "why_tests_cant": "2^64 values.", "anchors": ["include/NazaraUtils/MathUtils.inl: SetBit, ClearBit, ToggleBit, TestBit"]}
{"id": "C24", "title": "ArithmeticRightShift is floor division by a power of two", "statement": "ArithmeticRightShift(v, s) = floor(v / 2^s) for every signed v and 0 <= s < width, on the native path and on the portable path.", "quantifier": "every value, width, shift", "why_tests_cant": "2^64 values x shifts.", "anchors": ["include/NazaraUtils/MathUtils.inl: ArithmeticRightShift"]}
{"id": "C25", "title": "FixedVector/HybridVector behave as a sequence under any history", "statement": "For every sequence of push_back, emplace_back, emplace, insert, erase(pos), erase(first,last), pop_back, resize, clear and reserve called with valid positions and (without fallback) within the capacity, the contents and size are those of the abstract sequence, the returned iterator designates the inserted element or the one after the erased range, and growing past the inline capacity (moving to the fallback container) changes neither contents nor order.", "quantifier": "every capacity, with and without fallback, every element type, every history", "why_tests_cant": "Unbounded histories; element shifting loops, switching to the fallback at any time.", "anchors": ["include/NazaraUtils/FixedVector.inl: emplace, emplace_back, erase, insert, push_back, pop_back, resize, reserve, clear, MoveStorageToFallback"]}
{"id": "C26", "title": "FixedVector manages element lifetimes exactly", "statement": "In every history as in C25 no element is constructed over a live element, read, assigned, moved from or destroyed while not alive; at any time exactly size() elements are alive in the vector, and destroying the vector destroys each of them exactly once.", "quantifier": "every capacity and history", "why_tests_cant": "Lifetime errors are silent for trivial types and depend on the history.", "anchors": ["include/NazaraUtils/FixedVector.inl: ~FixedVector, emplace, erase, resize, clear, MoveStorageToFallback"]}
{"id": "C27", "title": "Copying and moving a FixedVector", "statement": "Copy construction/assignment makes the target equal to the source and leaves the source unchanged; move construction/assignment gives the target the source's former contents; no element is leaked or destroyed twice, also when the target was not empty, when either side uses the fallback, and on self-assignment.", "quantifier": "every pair of vectors reachable by histories", "why_tests_cant": "Pairs of histories, aliasing of source and destination.", "anchors": ["include/NazaraUtils/FixedVector.inl: copy/move constructors, operator="]}
{"id": "C28", "title": "FixedVector keeps its invariants when an element constructor throws", "statement": "If constructing an element throws in emplace_back, push_back, emplace or resize, the exception leaves the vector holding only live elements (so its destructor is safe).", "quantifier": "every vector, every point at which a constructor may throw", "why_tests_cant": "Crash points: each constructor call in each history.", "anchors": ["include/NazaraUtils/FixedVector.inl: emplace_back, push_back, emplace, resize"]}
{"id": "C29", "title": "StackVector behaves as a bounded sequence and manages lifetimes exactly", "statement": "As C25 and C26 for StackVector with its fixed capacity: within capacity every operation matches the abstract sequence, and all elements are constructed and destroyed exactly once.", "quantifier": "every capacity, every history", "why_tests_cant": "Unbounded histories.", "anchors": ["include/NazaraUtils/StackVector.inl"]}
{"id": "C30", "title": "Moving a StackVector transfers its elements", "statement": "After move construction or move assignment the target holds the source's elements and destroying both vectors destroys each element exactly once.", "quantifier": "every pair of stack vectors", "why_tests_cant": "Pairs of histories.", "anchors": ["include/NazaraUtils/StackVector.hpp: defaulted moves; StackVector.inl: destructor"]}
{"id": "C31", "title": "StackArray constructs and destroys each of its elements exactly once", "statement": "StackArray(n) constructs n elements in order and its destructor destroys these n; fill sets every element; indexing within range is exact.", "quantifier": "every n", "why_tests_cant": "All sizes.", "anchors": ["include/NazaraUtils/StackArray.inl"]}
{"id": "C32", "title": "MemoryPool never hands out a live entry twice", "statement": "In every history of Allocate/Free/Clear, the index returned by Allocate differs from the index of every live entry, refers to raw storage, and the entry keeps its index and its address until it is freed, no matter what other allocations do.", "quantifier": "every block size >= 1, every history", "why_tests_cant": "Unbounded interleavings of allocations and frees.", "anchors": ["include/NazaraUtils/MemoryPool.inl: Allocate, Free, Clear"]}
{"id": "C33", "title": "MemoryPool counters are exact", "statement": "At any time GetAllocatedEntryCount() is the number of live entries, GetAllocatedEntryCount() + GetFreeEntryCount() = GetBlockCount() * GetBlockSize(), and Allocate adds a block only if no entry is free.", "quantifier": "every history", "why_tests_cant": "Counter drift appears only over histories.", "anchors": ["include/NazaraUtils/MemoryPool.inl: GetAllocatedEntryCount, GetFreeEntryCount, GetBlockCount, Allocate, Free"]}
{"id": "C34", "title": "MemoryPool iteration visits every live entry exactly once in index order", "statement": "begin()..end() terminates and visits precisely the live entries, each once, in increasing index order, also across empty and full blocks.", "quantifier": "every reachable pool", "why_tests_cant": "Block boundaries, empty blocks, all occupancy patterns.", "anchors": ["include/NazaraUtils/MemoryPool.inl: begin, end, iterator::operator++, GetFirstAllocatedEntry, GetNextAllocatedEntry"]}
{"id": "C35", "title": "MemoryPool index and pointer conversions are inverse", "statement": "RetrieveEntryIndex(RetrieveFromIndex(i)) == i for every live index i, and distinct live indices have distinct addresses inside their block.", "quantifier": "every reachable pool, every live index", "why_tests_cant": "All indices/pool shapes.", "anchors": ["include/NazaraUtils/MemoryPool.inl: RetrieveFromIndex, RetrieveEntryIndex, GetAllocatedPointer"]}
{"id": "C36", "title": "MemoryPool constructs and destroys each object exactly once", "statement": "Over any history ending with Clear or destruction of the pool, every object constructed by Allocate is destroyed exactly once and nothing else is.", "quantifier": "every history", "why_tests_cant": "Balanced lifetimes over unbounded histories.", "anchors": ["include/NazaraUtils/MemoryPool.inl: Free, Clear, Reset, destructor"]}
{"id": "C37", "title": "MemoryPool::Reset returns the pool to its full capacity", "statement": "After Reset no entry is live, GetFreeEntryCount() equals the total capacity, iteration is empty and the pool can again hand out its whole capacity without adding a block.", "quantifier": "every reachable pool", "why_tests_cant": "Effect of Reset shows only in later histories.", "anchors": ["include/NazaraUtils/MemoryPool.inl: Reset"]}
{"id": "C38", "title": "Emitting a signal calls every connected slot exactly once", "statement": "After any history of Connect/Disconnect (through connections, guards or Clear), emitting the signal with passive callbacks calls each currently connected callback exactly once, with the emitted arguments, and no other.", "quantifier": "every history, any number of slots", "why_tests_cant": "Swap-and-pop removal permutes slots; unbounded histories.", "anchors": ["include/NazaraUtils/Signal.inl: Connect, Disconnect, Clear, operator()"]}
{"id": "C39", "title": "Disconnecting from inside a callback is safe and complete", "statement": "If callbacks disconnect any slots (themselves, already called or not yet called ones) during an emission, no disconnected slot is called afterwards, each slot still connected at the end is called exactly once, no slot is called twice and the emission terminates.", "quantifier": "every number of slots, every disconnection behaviour of every callback", "why_tests_cant": "All schedules of disconnections inside an emission.", "anchors": ["include/NazaraUtils/Signal.inl: Disconnect, operator()"]}
{"id": "C40", "title": "A Connection reports and controls exactly its own slot", "statement": "IsConnected() is true exactly from Connect until the slot is disconnected, the signal is cleared or the signal destroyed; Disconnect() removes this slot and no other; a second Disconnect, or one after the signal is gone, has no effect.", "quantifier": "every history over any number of signals' slots and connections", "why_tests_cant": "Index bookkeeping over unbounded histories.", "anchors": ["include/NazaraUtils/Signal.inl: Connection, Disconnect, Clear"]}
{"id": "C41", "title": "A ConnectionGuard disconnects its slot when it dies or is re-targeted", "statement": "When a guard is destroyed or connected to something else its previous slot is not called any more; moving a guard transfers the responsibility.", "quantifier": "every history", "why_tests_cant": "Ownership transfer over histories.", "anchors": ["include/NazaraUtils/Signal.inl: ConnectionGuard"]}
{"id": "C42", "title": "Connecting slots during an emission", "statement": "A slot connected by a callback during an emission does not prevent any already connected and still connected slot from being called in that emission, is itself not called before the next emission, and the emission terminates.", "quantifier": "every interleaving of connects and disconnects in callbacks", "why_tests_cant": "All schedules.", "anchors": ["include/NazaraUtils/Signal.inl: Connect, Disconnect, operator()"]}
{"id": "C43", "title": "Moving a signal transfers its connections", "statement": "After move construction/assignment emitting the new signal calls exactly the slots of the old one, connections keep controlling them, and the source signal emits nothing.", "quantifier": "every reachable signal pair", "why_tests_cant": "Histories on both sides, inline and fallback storage.", "anchors": ["include/NazaraUtils/Signal.inl: move constructor, move assignment"]}
{"id": "C44", "title": "Flags form the boolean algebra of sets of enumerators", "statement": "Test(f) is membership; |, &, ^, ~ are union, intersection, symmetric difference and complement relative to the declared enumerators; Set/Clear add/remove members; == is extensional; the boolean conversion is non-emptiness.", "quantifier": "every enumeration size up to 64, every flags value reachable by operations", "why_tests_cant": "2^64 values, width selection, masks.", "anchors": ["include/NazaraUtils/Flags.inl, Flags.hpp"]}
{"id": "C45", "title": "Iterating flags visits each set enumerator once in order", "statement": "Range iteration over Flags yields exactly the enumerators e with Test(e), each once, in increasing order, and terminates.", "quantifier": "every value", "why_tests_cant": "2^64 values.", "anchors": ["include/NazaraUtils/Flags.inl: iterator"]}
{"id": "C46", "title": "SparsePtr arithmetic is affine in the stride", "statement": "(p + n)[k] designates base + (n + k) * stride for every signed stride, ++/--/+=/-= agree with +, (p + n) - p == n for stride != 0, and comparisons order by address.", "quantifier": "every base address, stride and offset not overflowing the address space", "why_tests_cant": "All strides and signs, mixed integer types.", "anchors": ["include/NazaraUtils/SparsePtr.inl"]}
{"id": "C47", "title": "CRC32 equals the reflected polynomial division", "statement": "CRC32(data) (and the compile-time string version) equals the bit-by-bit CRC with the reflected polynomial 0xEDB88320, initial value and final complement as coded, for every byte sequence.", "quantifier": "every byte sequence of any length", "why_tests_cant": "256^n inputs; a single wrong table entry is hit by 1/256 of bytes.", "anchors": ["include/NazaraUtils/Hash.inl: CRC32, CRC32 table"]}
{"id": "C48", "title": "Hashing detects a single changed byte", "statement": "Two inputs of equal length that differ in exactly one byte have different FNV1a32, FNV1a64 and CRC32 values; and each hash of a concatenation is the hash of the second part started from the state after the first.", "quantifier": "every pair of inputs, every position", "why_tests_cant": "Unbounded inputs.", "anchors": ["include/NazaraUtils/Hash.inl: FNV1a32, FNV1a64, CRC32"]}
{"id": "C49", "title": "The overloads of each hash agree on the same bytes", "statement": "Hashing a string literal, a string_view and a (pointer, size) byte buffer with the same bytes gives the same CRC32/FNV1a value.", "quantifier": "every byte sequence", "why_tests_cant": "Differs only for bytes >= 0x80.", "anchors": ["include/NazaraUtils/Hash.inl"]}
{"id": "C50", "title": "HashCombine never merges distinct hashes of one value", "statement": "For a fixed seed HashCombine is a bijection of the hash of the combined value, so distinct element hashes give distinct results.", "quantifier": "every 64-bit seed and hash", "why_tests_cant": "2^128 pairs.", "anchors": ["include/NazaraUtils/Hash.inl: HashCombine"]}
{"id": "C51", "title": "Result holds either a value or an error and Map respects it", "statement": "IsOk() and IsErr() are complementary; GetValue/GetError return what was stored; Map transforms the value and propagates errors untouched (identity and composition laws), GetValueOr returns the value or the default; propagating through the TRY macros returns the first error.", "quantifier": "every result, every function", "why_tests_cant": "Laws over all functions and values.", "anchors": ["include/NazaraUtils/Result.inl, Result.hpp"]}
{"id": "C52", "title": "Movable wrappers leave the source in the documented state", "statement": "Move construction of MovablePtr/MovableLiteral transfers the value and resets the source to null/default; move assignment exchanges the values; copies leave the source untouched.", "quantifier": "every value, every sequence of moves among any number of wrappers", "why_tests_cant": "Histories of moves: a resource must be owned once.", "anchors": ["include/NazaraUtils/MovablePtr.inl, MovableValue.inl"]}
{"id": "C53", "title": "CallOnExit calls its functor exactly once", "statement": "Whatever sequence of CallAndReset, Reset, move assignment and destruction happens, a functor is called at most once, and exactly once unless it was reset or replaced.", "quantifier": "every history", "why_tests_cant": "Histories of moves and resets, exceptions.", "anchors": ["include/NazaraUtils/CallOnExit.inl"]}
{"id": "C54", "title": "PrivateImpl owns exactly one object and copies deeply", "statement": "Copies are independent of the original, moves transfer, each held object is destroyed exactly once, self-assignment is harmless.", "quantifier": "every history over any number of PrivateImpl objects", "why_tests_cant": "Ownership over histories; aliasing.", "anchors": ["include/NazaraUtils/PrivateImpl.inl"]}
{"id": "C55", "title": "Type list operations obey list laws", "statement": "Append, Prepend, Concat, At, Size, Find, RebuildWithout, Transform, Apply and Unique on type lists are the list functions of the same name: Find returns the first index or the not-found value, Unique keeps the first occurrence of each type.", "quantifier": "every type list", "why_tests_cant": "Lists of any length.", "anchors": ["include/NazaraUtils/TypeList.inl"]}
{"id": "C56", "title": "EnumArray is a total map over its enumeration", "statement": "Every enumerator has its own element; writing one leaves the others unchanged; key-value iteration visits each enumerator once in order with its element.", "quantifier": "every enumeration size, every content", "why_tests_cant": "All sizes.", "anchors": ["include/NazaraUtils/EnumArray.inl"]}
{"id": "C57", "title": "SafeCast reports exactly the values that do not fit", "statement": "SafeCast<To>(from) between integer types succeeds and returns the same mathematical value if from is representable in To, and fails an assertion otherwise.", "quantifier": "every pair of integer types, every value", "why_tests_cant": "2^64 values x 64 type pairs.", "anchors": ["include/NazaraUtils/Algorithm.inl: SafeCast"]}
{"id": "C58", "title": "TypeName extracts the full type name", "statement": "TypeName<T>() is the compiler's spelling of T, for every T.", "quantifier": "every type spelling", "why_tests_cant": "Unboundedly many type spellings.", "anchors": ["include/NazaraUtils/TypeName.inl"]}
{"id": "C59", "title": "Post-increment of a bit iterator", "statement": "it++ on an iterator of IterBits() returns the old position and moves the iterator to the next set bit, as ++it does.", "quantifier": "every bitset, every set bit", "why_tests_cant": "Every bitset and position.", "anchors": ["include/NazaraUtils/Bitset.inl: BitIterator::operator++"]}
{"id": "C60", "title": "A moved-from bitset is usable", "statement": "After Bitset b(std::move(a)), b is the old a and a is in a valid state: every member function called within its documented precondition (index < GetSize()) behaves as on a bitset of that size.", "quantifier": "every bitset, every index", "why_tests_cant": "Depends on what the moved-from container keeps, for all sizes.", "anchors": ["include/NazaraUtils/Bitset.hpp: Bitset(Bitset&&), operator=(Bitset&&)"]}
{"id": "C61", "title": "FixedBitset holds the number of bits it is declared for", "statement": "A FixedBitset<Block, Capacity> (and the inline part of a HybridBitset) has enough blocks for every bitset of at most Capacity bits.", "quantifier": "every block type, every capacity, every reachable bitset", "why_tests_cant": "All capacities.", "anchors": ["include/NazaraUtils/Bitset.hpp: FixedBitset, HybridBitset"]}
{"id": "C62", "title": "Arguments that are elements of the vector itself", "statement": "push_back(v[i]), emplace/insert(pos, v[i]) and resize(n, v[i]) on a FixedVector or HybridVector insert the value v[i] had before the call, as for std::vector.", "quantifier": "every vector, capacity, position and element index", "why_tests_cant": "Needs every combination of fill level, position and aliased element.", "anchors": ["include/NazaraUtils/FixedVector.inl: push_back, emplace_back, emplace, insert, resize, MoveStorageToFallback"]}
{"id": "C63", "title": "Moving a StackArray transfers its elements", "statement": "After moving a StackArray the target holds the elements and destroying both arrays destroys each element exactly once.", "quantifier": "every pair of stack arrays", "why_tests_cant": "All pairs of sizes.", "anchors": ["include/NazaraUtils/StackArray.hpp: defaulted moves; StackArray.inl: destructor"]}
{"id": "C64", "title": "Element constructors that throw inside a StackVector or StackArray", "statement": "When the constructor of an element throws during a StackVector operation or the construction of a StackArray, the exception reaches the caller, the vector shows its former elements and remains usable and destructible, and no constructed element is left undestroyed.", "quantifier": "every vector, operation and throwing construction; every array size and failing element", "why_tests_cant": "The failing construction can be any of arbitrarily many.", "anchors": ["include/NazaraUtils/StackVector.inl: emplace_back, push_back, emplace, resize, clear, destructor; StackArray.inl: constructor, destructor"]}
{"id": "C65", "title": "A throwing constructor in MemoryPool::Allocate leaves the pool usable", "statement": "When the constructor of the element throws inside Allocate, the exception reaches the caller, no entry stays allocated, and the pool can be used and destroyed as before.", "quantifier": "every reachable pool, every block size", "why_tests_cant": "Needs every pool state and an exception at construction.", "anchors": ["include/NazaraUtils/MemoryPool.inl: Allocate, Free, Reset, destructor"]}
{"id": "C66", "title": "Moving a MemoryPool keeps indices, addresses and objects", "statement": "After moving a pool into a new or existing pool, the target shows the indices, addresses and objects of the source, the source is empty and usable, and the objects that lived in the target are destroyed.", "quantifier": "every pair of reachable pools, every later history", "why_tests_cant": "Both pools can be in any state.", "anchors": ["include/NazaraUtils/MemoryPool.hpp: move constructor, move assignment"]}
{"id": "C67", "title": "Recursive emission calls every slot in each of the nested emissions", "statement": "When a callback emits its own signal again (without connecting or disconnecting), the inner and the outer emission each call every connected slot exactly once.", "quantifier": "every reachable signal, every nesting", "why_tests_cant": "The cursor of the emission is a member shared by nested emissions; the effect depends on which callback emits and on the number of slots.", "anchors": ["include/NazaraUtils/Signal.inl: operator()"]}
{"id": "C68", "title": "SparsePtr is a random access iterator", "statement": "For elements a and b of one strided sequence, a < b holds exactly if b - a is positive, for every stride other than 0 (iterator_traits declares a random access iterator).", "quantifier": "every base, stride and pair of element numbers", "why_tests_cant": "All strides, both signs.", "anchors": ["include/NazaraUtils/SparsePtr.inl: operator<, operator-, std::iterator_traits"]}
{"id": "C69", "title": "Converting a SparsePtr designates the base class subobject", "statement": "Converting SparsePtr<Derived> to SparsePtr<Base> gives a pointer to the Base subobject of the same object, with the same stride.", "quantifier": "every class layout (offset of the base) and pointer", "why_tests_cant": "Layouts with bases at any offset.", "anchors": ["include/NazaraUtils/SparsePtr.inl: SparsePtr(const SparsePtr<U>&), Reset(const SparsePtr<U>&)"]}
{"id": "C70", "title": "CRC32 detects every burst of at most 32 bits", "statement": "Two byte sequences that differ, but only within 32 consecutive bits (least significant bit of each byte first), have different CRC32 values.", "quantifier": "every pair of inputs of any length, every position and content of the window", "why_tests_cant": "Unbounded inputs and 2^64 pairs of windows at each position.", "anchors": ["include/NazaraUtils/Hash.inl: CRC32"]}
{"id": "C71", "title": "Ok and Err do not consume lvalues", "statement": "Building a Result from Ok(x) or Err(x) with an lvalue x leaves x unchanged; with an rvalue it moves from it.", "quantifier": "every value, every type with an observable moved-from state, both forms of Result", "why_tests_cant": "Depends on the instantiation (void or not) and on the type's moved-from state.", "anchors": ["include/NazaraUtils/Result.inl: Ok, Err, Result(ResultValue<T>), Result(ResultError<T>)"]}
{"id": "C72", "title": "Assigning a value to a MovableValue leaves an lvalue unchanged", "statement": "Constructing or assigning a MovableValue from an lvalue copies it: the lvalue keeps its value; an rvalue may be moved from.", "quantifier": "every value and every type with an observable moved-from state", "why_tests_cant": "Depends on the value category and on the type's moved-from state.", "anchors": ["include/NazaraUtils/MovableValue.inl: MovableValue(T), operator=(U&&)"]}
{"id": "C73", "title": "Calling a FunctionRef calls the callable it refers to", "statement": "A FunctionRef bound to a callable, and every copy of it, calls that very callable (its state changes, its result or exception is passed on) as long as the callable lives; operator bool tells whether it is bound; a FunctionRef made from a pointer to a function can be called later.", "quantifier": "every history of callables and FunctionRef objects, every callable type", "why_tests_cant": "Histories of binding, copying and lifetimes; type erasure for all types.", "anchors": ["include/NazaraUtils/FunctionRef.inl, FunctionRef.hpp"]}
{"id": "C74", "title": "SafeCast from floating point accepts exactly the integral values of the target's range", "statement": "SafeCast<To>(f) of a floating-point value f to an integer type returns the same mathematical value if f is an integer representable in To and fails an assertion otherwise (fractions, too large values, infinities, NaN).", "quantifier": "every integer type, every floating-point format and value", "why_tests_cant": "All floating-point values; the boundary depends on the precision of the format and the width of the type.", "anchors": ["include/NazaraUtils/Algorithm.inl: SafeCast, lines 200-225"]}
{"id": "C75", "title": "SafeCast of pointers and references to polymorphic classes checks the dynamic type", "statement": "SafeCast<Derived*>(Base*) and SafeCast<Derived&>(Base&) return the same object if it is of class Derived (or the pointer is null) and fail an assertion otherwise.", "quantifier": "every class hierarchy, every object", "why_tests_cant": "All hierarchies and dynamic types.", "anchors": ["include/NazaraUtils/Algorithm.inl: SafeCast, lines 245-275"]}
{"id": "C76", "title": "Pointer to integer and back is the identity unless reported", "statement": "PointerToInteger<T>(p) fails an assertion if the address does not fit T; otherwise IntegerToPointer of the result is p.", "quantifier": "every address, every integer type", "why_tests_cant": "2^64 addresses.", "anchors": ["include/NazaraUtils/Algorithm.inl: PointerToInteger, IntegerToPointer"]}
{"id": "C77", "title": "IsFinite, IsInfinity and IsNaN classify every value, alike at compile time and at run time", "statement": "For every floating-point value exactly one of IsFinite, IsInfinity and IsNaN holds, and each gives the same answer in a constant expression as at run time.", "quantifier": "every floating-point format and value", "why_tests_cant": "All bit patterns; two different implementations per function.", "anchors": ["include/NazaraUtils/MathUtils.inl: IsFinite, IsInfinity, IsNaN"]}
{"id": "C78", "title": "NumberEquals tells whether two numbers are within the tolerance", "statement": "NumberEquals(a, b, maxDifference) holds exactly for numbers whose distance is at most maxDifference (up to the rounding of the distance), is symmetric and reflexive, gives the same answer at compile time and at run time, and holds of equal infinities.", "quantifier": "every floating-point format, all values including infinities and NaN, all tolerances", "why_tests_cant": "All pairs of values and tolerances; rounding, overflow and special values.", "anchors": ["include/NazaraUtils/MathUtils.inl: NumberEquals"]}
{"id": "C79", "title": "Clamp and Approach stay within their bounds", "statement": "Clamp returns a value between the bounds, and the value itself if it is between them. Approach moves towards the objective, never past it, and reaches it after finitely many steps of a positive increment.", "quantifier": "every ordered type resp. floating-point format, all values, all increments", "why_tests_cant": "All values and rounding; reaching the objective is about unboundedly many steps.", "anchors": ["include/NazaraUtils/MathUtils.inl: Clamp, Approach"]}
{"id": "C80", "title": "Lerp interpolates", "statement": "Lerp(from, to, 0) is from, Lerp(from, to, 1) is to, and for interpolations in [0, 1] the result lies between the two and is monotone in the interpolation; for floating-point and for integer types.", "quantifier": "every floating-point format and integer type, all values and interpolations", "why_tests_cant": "Rounding and overflow for all triples of values.", "anchors": ["include/NazaraUtils/MathUtils.inl: Lerp"]}
{"id": "C81", "title": "Mod is the remainder of the division, alike at compile time and at run time", "statement": "Mod(x, y) is x - n*y for the integer n that makes it smaller than y in magnitude and of the sign of x; it gives the same answer in a constant expression as at run time, for floating-point and integer types.", "quantifier": "every floating-point format and integer type, all dividends and divisors other than zero", "why_tests_cant": "All pairs of values; two different implementations.", "anchors": ["include/NazaraUtils/MathUtils.inl: Mod"]}
{"id": "C82", "title": "MultiplyAdd computes x * y + z", "statement": "MultiplyAdd(x, y, z) is x * y + z rounded once or twice, with the same result on all platforms, and monotone in z.", "quantifier": "every floating-point format, all triples of values", "why_tests_cant": "All triples of values and whether the platform has a fused instruction.", "anchors": ["include/NazaraUtils/MathUtils.inl: MultiplyAdd"]}
{"id": "C83", "title": "The mathematical constants are the nearest numbers of their type", "statement": "HalfPi<T>(), Pi<T>(), Tau<T>(), Sqrt2<T>(), Sqrt3<T>(), Sqrt5<T>() are the numbers of the type T nearest to the real numbers they stand for; Pi is twice HalfPi and Tau twice Pi.", "quantifier": "all numbers of float, double and long double (nearest of all of them); the real constants", "why_tests_cant": "The claim is about real numbers; a test can only compare digits with digits.", "anchors": ["include/NazaraUtils/Constants.inl, Constants.hpp"]}
{"id": "C84", "title": "MaxValue and MinValue are the greatest and the least value of the type", "statement": "MaxValue<T>() is at least every finite value of T and MinValue<T>() at most every finite value of T.", "quantifier": "every integer width and signedness, every floating-point format, every value", "why_tests_cant": "All values of all types.", "anchors": ["include/NazaraUtils/Constants.inl: MaxValue, MinValue"]}
{"id": "C85", "title": "DegreeToRadian and RadianToDegree convert with bounded relative error", "statement": "The result of a conversion is within a few units of the last place of the exact angle, the conversions keep the order and the sign of angles, and converting there and back gives the angle up to a few units of the last place.", "quantifier": "float and double, all angles (where the exact result is below the smallest number with all its digits, units of the last place of that number; round trips up to the last units of the range)", "why_tests_cant": "All floating-point values; error relative to a real number.", "anchors": ["include/NazaraUtils/MathUtils.inl: DegreeToRadian, RadianToDegree"]}
{"id": "C86", "title": "An assertion is a statement of its own, enabled or not", "statement": "NazaraAssert(cond) and NazaraAssertMsg(cond, ...) can stand wherever a statement can. Enabling assertions changes nothing about what a program does except that a condition that does not hold ends it.", "quantifier": "every program (sequences, blocks, if, if-else, loops in any nesting), every state, both configurations", "why_tests_cant": "All programs the macro can be used in; a test is one program in one configuration.", "anchors": ["include/NazaraUtils/Assert.hpp: NazaraAssert, NazaraAssertMsg"]}
{"id": "C87", "title": "A failed assertion is reported verbatim and never returns", "statement": "A failed assertion writes its text with file and line, unchanged whatever characters it contains, and ends the program; in a constant expression it is a compile error. The functions Assert and AssertWithSource check in every configuration and do nothing if the condition holds.", "quantifier": "every text, file name, line and list of arguments", "why_tests_cant": "All texts, among them those with conversion specifiers of printf.", "anchors": ["include/NazaraUtils/Assert.inl: AssertFailure, AssertFailureWithSource, Assert, AssertWithSource"]}
{"id": "C88", "title": "SafeCast to a floating-point type keeps the value or reports that it cannot", "statement": "SafeCast<To>(v) to a floating-point type returns v if v is a value of To and fails an assertion otherwise.", "quantifier": "every pair of floating-point types, every integer, every value including infinities and NaN, rvalues and lvalues", "why_tests_cant": "All values of all pairs of formats; rounding at the ends of the range.", "anchors": ["include/NazaraUtils/Algorithm.inl: SafeCast, lines 232-243"]}
{"id": "C89", "title": "StringHash gives equal texts equal hashes whatever the type that holds them", "statement": "The hash of a C string, of a std::string_view and of a std::string with the same characters is the same, and it is that of std::hash<std::string_view>.", "quantifier": "every text, every key type", "why_tests_cant": "All texts, with nulls inside and without terminator.", "anchors": ["include/NazaraUtils/StringHash.inl: StringHash"]}
{"id": "C90", "title": "Conversions between char and char8_t strings and paths keep every byte", "statement": "FromUtf8String and ToUtf8String keep the bytes, for strings, views and C strings, alike before and after C++20, with views on the same memory and strings of their own; there and back is the identity. Utf8Path and PathToString are the conversions of the platform, unchanged.", "quantifier": "every sequence of bytes", "why_tests_cant": "All byte sequences and both language versions.", "anchors": ["include/NazaraUtils/StringUtils.inl: FromUtf8String, ToUtf8String", "include/NazaraUtils/PathUtils.inl: Utf8Path, PathToString"]}
{"id": "C91", "title": "StaticUniquePointerCast keeps exactly one owner", "statement": "In every program over unique pointers with StaticUniquePointerCast every object has exactly one owner and is destroyed exactly once; the cast moves the object without touching it; a cast to a class the object is not of is reported.", "quantifier": "every class hierarchy, every history of creations, casts, assignments, resets and scope ends over any number of pointers", "why_tests_cant": "All histories and hierarchies.", "anchors": ["include/NazaraUtils/Algorithm.inl: StaticUniquePointerCast"]}
{"id": "C92", "title": "A FixedBitset is a Bitset up to its capacity", "statement": "Every history of operations on FixedBitset<Block, Capacity> variables whose sizes stay within Capacity gives the same bits as on sequences of booleans; a call that would exceed the capacity fails an assertion.", "quantifier": "every block type of at least 8 bits, every capacity, every history over any number of variables", "why_tests_cant": "All histories and capacities: every function that can make the bitset longer must respect the bound of the container.", "anchors": ["include/NazaraUtils/Bitset.hpp: FixedBitset", "include/NazaraUtils/Bitset.inl: Resize, AppendBits, Write, PerformsAND, PerformsOR, PerformsXOR, PerformsNOT, UnboundedSet, constructors", "include/NazaraUtils/FixedVector.inl: resize, push_back, operator="]}
{"id": "C93", "title": "FunctionTraits describes everything that can be called", "statement": "For every function, function pointer, pointer to member function and class with one call operator, by value or by reference, with any qualifiers, FunctionTraits gives the return type, the number of parameters and each parameter type.", "quantifier": "every return type and parameter list, every combination of const, volatile, reference qualifier, noexcept and C variadic parameter list, every reference and cv-qualification of the type itself", "why_tests_cant": "All types: a test instantiates the template for a handful of types; the combinations of qualifiers are handled by separate specialisations.", "anchors": ["include/NazaraUtils/FunctionTraits.hpp: FunctionTraits"]}
{"id": "C94", "title": "Functor is satisfied by exactly the types that FunctionTraits describes", "statement": "IsFunctor_v<T> (and the concept Functor) is true if and only if FunctionTraits<T> can be instantiated.", "quantifier": "every type", "why_tests_cant": "All types: two independent sets of specialisations must cover the same types.", "anchors": ["include/NazaraUtils/FunctionTraits.hpp: IsFunctor, IsFunctor_v, Functor, FunctionTraits"]}
{"id": "C95", "title": "Overload selects the overload with the given parameter types", "statement": "Overload<Args...>(&f) is a pointer to the overload of f whose parameter types are Args..., and never to another one.", "quantifier": "every overload set, every list of parameter types", "why_tests_cant": "All overload sets: the result depends on every function of the set and on the resolution between fourteen call operators.", "anchors": ["include/NazaraUtils/FunctionTraits.hpp: OverloadResolver, Overload"]}
{"id": "C96", "title": "A throwing callback ends the emission and leaves the signal usable", "statement": "When a callback throws, no further slot is called, the exception leaves the emission (it is never swallowed and never invented), no connection changes, and the signal and its connections work afterwards as if the emission had ended normally: the next emission calls every connected slot exactly once.", "quantifier": "every history of the signals, every set of throwing slots, callbacks that connect, disconnect, clear, emit, throw and catch in any nesting", "why_tests_cant": "All histories and all callback behaviours; the iteration position of the interrupted emission remains in the signal.", "anchors": ["include/NazaraUtils/Signal.hpp: Signal", "include/NazaraUtils/Signal.inl: operator(), Connect, Disconnect"]}
{"id": "C97", "title": "A failed allocation leaves a bitset as it was", "statement": "When memory runs out during an operation on a bitset, the exception leaves every bitset with the size and the bits it had before the call, after every history of operations and failures.", "quantifier": "every history of operations on any number of bitsets, every pattern of failing allocations, all block widths, sizes and values", "why_tests_cant": "Tests cannot make every allocation of every history fail; what remains after a failure is only visible in later calls.", "anchors": ["include/NazaraUtils/Bitset.inl: Resize, UnboundedSet, PerformsAND, PerformsOR, PerformsXOR, PerformsNOT, AppendBits, Write"]}
{"id": "C98", "title": "A failed allocation leaves a memory pool as it was", "statement": "When memory runs out during Allocate, the exception leaves the pool as it was: all objects keep their index, address and value, the counters are unchanged, and later calls work as if the failed call had not been made.", "quantifier": "every history of calls on a pool and failures of any of the four allocations of a new block, all block sizes and entry sizes", "why_tests_cant": "Tests cannot make every allocation of every history fail, and the damage only shows in later calls, once the other entries are in use.", "anchors": ["include/NazaraUtils/MemoryPool.inl: Allocate, AllocateBlock, Free, Clear, Reset, RetrieveFromIndex", "include/NazaraUtils/MemoryPool.hpp: Block"]}
{"id": "C99", "title": "Appending or assigning an rvalue moves it", "statement": "push_back(std::move(x)) appends the value of x and leaves x moved from; move assignment leaves the elements of its source moved from (or the source empty). Neither copies an element.", "quantifier": "every reachable fixed or hybrid vector (source and target), all capacities, elements and histories", "why_tests_cant": "Whether an element is moved or copied depends on the storage in use, which depends on the whole history of the vector; tests sample a few.", "anchors": ["include/NazaraUtils/FixedVector.inl: push_back, operator=(FixedVector&&), CheckFallbackOnGrow, MoveStorageToFallback"]}
{"id": "C100", "title": "A hybrid vector survives a failed allocation", "statement": "If an allocation of the fallback container fails, the call throws std::bad_alloc and the vector has the elements, the capacity and the addresses it had; later calls and the destructor work as if the call had not been made. This holds of appending, inserting, resizing, reserving, copying and moving.", "quantifier": "every history of calls, every subset of the allocations that fails, all capacities, elements and growth policies of the fallback container", "why_tests_cant": "Which allocation fails depends on the environment; a test would have to fail every allocation of every history.", "anchors": ["include/NazaraUtils/FixedVector.inl: emplace_back, push_back, emplace, resize, reserve, CheckFallbackOnGrow, MoveStorageToFallback, operator=, copy and move constructors"]}
{"id": "C101", "title": "Capacity and reserve", "statement": "capacity() is at least size(). A call that needs room for no more than capacity() elements does not allocate and cannot throw; any call allocates at most once. A vector that never holds more than its inline capacity never allocates. After reserve(n), no history allocates that needs room for at most n elements.", "quantifier": "every reachable fixed or hybrid vector and every history, all capacities, elements and growth policies", "why_tests_cant": "Whether a call allocates depends on the whole history through the storage in use and the capacity of the fallback; tests sample a few.", "anchors": ["include/NazaraUtils/FixedVector.inl: capacity, reserve, emplace_back, emplace, resize, CheckFallbackOnGrow, MoveStorageToFallback"]}
{"id": "C102", "title": "References to elements stay valid", "statement": "References to the elements before the place a call changes stay valid and refer to the same values, as long as no call needs room for more than capacity() elements. The elements change their place exactly when a call allocates. Move construction from a vector that uses its fallback keeps references valid.", "quantifier": "every reachable vector, every element and every history of calls", "why_tests_cant": "A dangling reference may go unnoticed by a test, and the histories are unbounded.", "anchors": ["include/NazaraUtils/FixedVector.inl: data, emplace_back, emplace, erase, resize, reserve, move constructor"]}
{"id": "C103", "title": "Stack vectors and arrays get room for the requested number of elements", "statement": "NazaraStackVector(T, n) makes a vector of capacity n, and NazaraStackArray(T, n) an array of n value-initialised elements, with memory for n elements, whatever the platform and the order in which the compiler evaluates arguments; the size expression has its effects once.", "quantifier": "all size expressions, element sizes, platforms (Windows, GCC/Clang, neither), evaluation orders and histories of calls on the vector", "why_tests_cant": "The size is a run-time value of any magnitude or sign, the order of evaluation is chosen by the compiler, and a buffer that is too small may go unnoticed.", "anchors": ["include/NazaraUtils/StackVector.hpp: NazaraStackVector", "include/NazaraUtils/StackArray.hpp: NazaraStackArray", "include/NazaraUtils/MemoryHelper.hpp: NAZARA_ALLOCA"]}
{"id": "C104", "title": "Stack memory lives as long as the function that asked for it", "statement": "The memory of a stack vector or array can be used as long as the function that made it has not returned, also in the functions it calls and after the object was moved; a call gives back all the stack memory it asked for when it returns; the memory is given back when the object goes out of scope.", "quantifier": "every program: any nesting of calls, any number of stack vectors, moves and scopes", "why_tests_cant": "The histories of calls are unbounded, and the use of stack memory after a return may go unnoticed.", "anchors": ["include/NazaraUtils/StackVector.hpp: NazaraStackVector", "include/NazaraUtils/StackArray.hpp: NazaraStackArray", "include/NazaraUtils/MemoryHelper.hpp: NAZARA_ALLOCA"]}
{"id": "C105", "title": "Scope guards whose functors use other guards", "statement": "In a scope with any number of CallOnExit guards whose functors call CallAndReset or Reset on guards declared before them, after any sequence of CallAndReset and Reset and the end of the scope, each functor was called exactly once, or given up by a Reset and not called; nothing fails or recurses for ever. Functors left at the end are called in the reverse order of declaration. A functor may use its own guard.", "quantifier": "all numbers of guards, all functor bodies, all sequences of calls before the scope ends", "why_tests_cant": "Functors can trigger each other in unboundedly many nested ways; tests cover a few patterns.", "anchors": ["include/NazaraUtils/CallOnExit.inl: ~CallOnExit, CallAndReset, Reset"]}
{"id": "C106", "title": "Ok and Err carry the value they are given", "statement": "A Result made from Nz::Ok(x) or Nz::Err(x) holds the value x had when Ok or Err was called, also when the object returned by Ok or Err is kept in a variable and converted later. x is moved from exactly once if it was given as an rvalue, and otherwise unchanged.", "quantifier": "all argument types and values, lvalues and rvalues, all steps of the program between the call and the conversion", "why_tests_cant": "Whether the reference kept inside the returned object is still valid depends on everything the program does in between; a dangling reference may go unnoticed by a test.", "anchors": ["include/NazaraUtils/Result.inl: Ok, Err, Result(ResultValue<T>), Result(ResultError<T>)", "include/NazaraUtils/Result.hpp: ResultValue, ResultError"]}
{"id": "C107", "title": "A HybridBitset is a Bitset of any size", "statement": "Every history of allowed operations (including Reserve) on HybridBitset<Block, Capacity> variables, whatever sizes they reach, gives the same bits as on sequences of booleans, wherever the bitset keeps its blocks.", "quantifier": "every block type, every capacity, every history over any number of variables", "why_tests_cant": "All histories: the blocks move from the inline storage to the fallback at a moment that depends on the whole history, and copies, moves and exchanges mix both kinds.", "anchors": ["include/NazaraUtils/Bitset.hpp: HybridBitset", "include/NazaraUtils/Bitset.inl: Reserve, Swap and all functions of C01-C24", "include/NazaraUtils/FixedVector.inl: resize, push_back, clear, reserve, operator=, FixedVector(FixedVector&&)"]}
{"id": "C108", "title": "Loops over the iterators of FixedVector, HybridVector, StackVector and StackArray visit the sequence", "statement": "The loop from begin() to end() visits every element of the sequence once, in order, and ends; the loop from rbegin() to rend() visits them in the opposite order; assigning through the iterator changes that element. The usual loops that erase elements, or insert elements, through the iterators returned by erase and insert give the filtered, or interleaved, sequence, also when the vector moves to its fallback during the loop.", "quantifier": "every vector reachable by calls, copies and moves; every capacity, with and without fallback; every predicate and function applied", "why_tests_cant": "All lengths and all predicates; which storage the iterators point to depends on the history.", "anchors": ["include/NazaraUtils/FixedVector.inl: begin, end, rbegin, rend, data, erase, insert", "include/NazaraUtils/StackVector.inl: begin, end, rbegin, rend", "include/NazaraUtils/StackArray.inl: begin, end, rbegin, rend, size, empty"]}
{"id": "C109", "title": "References into a FixedVector or StackVector stay valid as long as the elements are not displaced", "statement": "A reference or pointer to element i of a FixedVector (while its elements are in the inline storage) or of a StackVector still designates that element after any call that inserts and removes only behind it; in general it designates whatever element is at position i. When a HybridVector outgrows its inline storage, which also reserve does, all references to its elements dangle.", "quantifier": "every reachable vector, every element, every history of allowed calls", "why_tests_cant": "All histories between taking the reference and using it.", "anchors": ["include/NazaraUtils/FixedVector.inl: data, operator[], CheckFallbackOnGrow, MoveStorageToFallback, emplace, erase, resize, reserve", "include/NazaraUtils/StackVector.inl: operator[], emplace, erase, resize"]}
{"id": "C110", "title": "A signal callback may use what it captured as long as it runs", "statement": "While a callback runs, the objects it captured can be used. Proved as long as the callback uses them before it disconnects slots, clears signals or emits; false for a callback that disconnects itself, or clears the signal, and then uses what it captured: the callable has been destroyed although it is running.", "quantifier": "every history of connections, emissions, disconnections and moves; every behaviour of the callbacks; every signal with a slot", "why_tests_cant": "Whether the callable is still there depends on what was done in nested calls; reading freed memory usually goes unnoticed in a test.", "anchors": ["include/NazaraUtils/Signal.inl: operator(), Connection::Disconnect, Disconnect, Clear", "include/NazaraUtils/Signal.hpp: Slot::callback"]}
{"id": "C111", "title": "The arguments of an emission", "statement": "With a parameter type passed by value, every callback is given the emitted argument, whatever the other callbacks do to their copies, and the emitter's argument is unchanged. With a reference parameter, all callbacks work on the emitter's object one after the other: each is given what the one before left, and in the end the emitter has what the last one left.", "quantifier": "every history, every number of slots, every function of the callbacks from the argument they get to the one they leave", "why_tests_cant": "All orders of the slots and all functions applied.", "anchors": ["include/NazaraUtils/Signal.inl: operator()", "include/NazaraUtils/Signal.hpp: Slot::callback"]}
{"id": "C112", "title": "BitCast keeps the bytes of the value", "statement": "BitCast gives the same with std::bit_cast, the builtin and std::memcpy. Between integer types it gives the congruent number, whatever the byte order; to an array of bytes it gives the digits in the byte order of the machine; a cast to the same type is the identity; a cast there and back gives the original value (proved for intermediate types without padding; through padding the value is lost). Casting any number but 0 and 1 to bool is undefined.", "quantifier": "all types built from integers, float, double, bool and structures of those to any depth; all values; both byte orders", "why_tests_cant": "All types and all values; reading padding or an invalid bool gives different results per compiler and build.", "anchors": ["include/NazaraUtils/Algorithm.inl: BitCast"]}
{"id": "C113", "title": "AccessByOffset with NazaraOffsetOf accesses the member", "statement": "The offsets of the members of a structure are aligned and the members do not overlap; AccessByOffset from the address of an object with the offset of a member designates this member: reading gives its value, whatever is in the padding, writing changes it and no other byte; offsets may be added along members of members.", "quantifier": "all structures of integers, bools and structures, all values, all addresses where an object can be, both byte orders", "why_tests_cant": "All layouts; overlapping or misaligned accesses need not show in a test.", "anchors": ["include/NazaraUtils/Algorithm.inl: AccessByOffset", "include/NazaraUtils/OffsetOf.hpp: NazaraOffsetOf, OffsetOf"]}
{"id": "C114", "title": "Retrieve gives a stable reference to the value of a key", "statement": "Retrieve of a key in a map gives a reference to its value; the reference refers to the value of this key as long as the key is not erased and the map not destroyed, whatever is done with other keys and maps; assigning through it changes the value of this key only. For a missing key the assertion fails, without assertions the behaviour is undefined. A temporary map is accepted, and the reference then dangles.", "quantifier": "all histories of creations, insertions, erasures, destructions and assignments; all keys and values", "why_tests_cant": "All histories between taking the reference and using it.", "anchors": ["include/NazaraUtils/Algorithm.inl: Retrieve"]}
{"id": "C115", "title": "An exception of a move of an element leaves a FixedVector usable", "statement": "If the move constructor or move assignment of an element throws inside erase, emplace, insert, push_back, emplace_back, resize, reserve or a move of a whole FixedVector or HybridVector, the exception reaches the caller, the vector holds living elements only, and destroying it destroys every object (true of erase, and of the first move of the others; false of all other moves: one element is leaked, or the destructor is undefined, or the program ends).", "quantifier": "all capacities, contents, positions; the exception at any of the moves", "why_tests_cant": "The exception can occur at any move of any call; leaks and raw storage are not visible in the contents.", "anchors": ["include/NazaraUtils/FixedVector.inl: erase, emplace, MoveStorageToFallback, resize, reserve, FixedVector(FixedVector&&), operator=(FixedVector&&)"]}
{"id": "C116", "title": "An exception inside a FixedVector constructor or copy assignment leaves no object behind", "statement": "If the copy of an element throws inside FixedVector(size, value), FixedVector(first, last), the initializer list, the copy constructor or copy assignment, every element constructed so far is destroyed exactly once, by the constructor or later by the destructor of the target (true if the elements go to the fallback; false inside the vector: the elements are leaked, or the destructor destroys one that was never constructed).", "quantifier": "all capacities, sources and targets; the exception at any of the copies", "why_tests_cant": "The exception can occur at any element; leaks and destruction of raw storage are not visible in the contents.", "anchors": ["include/NazaraUtils/FixedVector.inl: FixedVector(size_type, const T&), FixedVector(InputIt, InputIt), FixedVector(const FixedVector&), operator=(const FixedVector&)"]}
{"id": "C117", "title": "Emitting other signals from callbacks does not disturb an emission", "statement": "When the callbacks of signals do nothing but emit other signals, and no signal is emitted during its own emission, every emission, at any depth, ends, calls every slot of its signal exactly once with the argument of that emission, and changes no connection.", "quantifier": "every reachable set of signals, every callbacks of that kind (depending on all that happened before), every depth and number of emissions", "why_tests_cant": "The number of ways to nest emissions is unbounded.", "anchors": ["include/NazaraUtils/Signal.inl: operator()"]}
{"id": "C118", "title": "Callbacks may own guards of other connections", "statement": "When a callback owns ConnectionGuards (it captured them), disconnecting its slot, clearing its signal or destroying its signal disconnects exactly the slots concerned and, with each slot that dies, the slots of the guards its callback owned, and leaves all other signals and slots as they were (true of Disconnect; of Clear and the destructor only if no callback owns a guard of another slot of the same signal).", "quantifier": "every reachable set of signals, every ownership between callbacks and slots, chains and cycles of any length", "why_tests_cant": "The destructors run in the middle of operations on the slot list; the orders and cycles of ownership are unbounded, and undefined behaviour need not show.", "anchors": ["include/NazaraUtils/Signal.inl: Connection::Disconnect, ConnectionGuard::~ConnectionGuard, Clear", "include/NazaraUtils/Signal.hpp: ~Signal"]}
{"id": "C119", "title": "A failed allocation in Connect changes nothing", "statement": "If an allocation fails in Signal::Connect, Connection::Connect, ConnectionGuard::Connect or a move of a signal, the exception reaches the caller and signals, slots and connections are as they were (true of Connect and Connection::Connect; ConnectionGuard::Connect has already disconnected its former slot; a move assignment ends the program in one case).", "quantifier": "every reachable set of signals, every one of the allocations failing", "why_tests_cant": "Allocation failures are rare and can happen at each of the allocations in any state.", "anchors": ["include/NazaraUtils/Signal.inl: Connect, Connection::Connect, ConnectionGuard::Connect, operator=(Signal&&)"]}
{"id": "C120", "title": "Loops over a pool may change the pool", "statement": "A loop over a MemoryPool whose body allocates, frees (the current entry or others), constructs, destroys or assigns entries of the pool meets no failed assertion and no undefined behaviour. It goes from each entry to the entry with the next greater index that is in use at that time: no entry is visited twice, none that has been freed, and every entry that is in use from the beginning and is not freed is visited. It ends if the bodies stop allocating. (A body that calls Clear makes the loop fail.)", "quantifier": "every reachable pool, every body (any function of the indices visited so far to lists of calls), loops of any length", "why_tests_cant": "The bodies range over all programs; entries appear and vanish before and behind the iterator, in the current block and in others.", "anchors": ["include/NazaraUtils/MemoryPool.inl: begin, end, iterator::operator++, operator*, Allocate, Free"]}
{"id": "C121", "title": "Objects in a pool may own entries of the pool", "statement": "If the destructors of the objects of a pool free other entries of it (the nodes of trees), Free on a root destroys each object of its tree once and returns the entries, leaving all others as they were; the destructor of the pool and Clear destroy every object once (true only if the root of every tree has the least index of its tree; otherwise an object is destroyed twice).", "quantifier": "every reachable pool, every forest of objects of any depth and width, every placement of the objects in the entries", "why_tests_cant": "The order in which entries are handed out depends on the whole history; destroying an object twice need not be noticed.", "anchors": ["include/NazaraUtils/MemoryPool.inl: Free, Reset, Clear, ~MemoryPool"]}
{"id": "C122", "title": "Arguments that are elements of the StackVector itself", "statement": "push_back(v[i]), emplace/insert(pos, v[i]) and resize(n, v[i]) on a StackVector insert the value v[i] had before the call, as for std::vector (false of emplace and insert for elements at or after the position).", "quantifier": "every vector, capacity, position and element index", "why_tests_cant": "Whether the argument is still intact when it is read depends on the positions of both elements.", "anchors": ["include/NazaraUtils/StackVector.inl: emplace, emplace_back, insert, push_back, resize"]}
{"id": "C123", "title": "An exception of a move of an element leaves a StackVector usable", "statement": "If the move constructor or move assignment of an element throws inside erase, emplace or insert of a StackVector, the exception reaches the caller, the vector holds living elements only, and destroying it destroys every object (true of erase, and of the first move of emplace and insert; false of the others: one element is leaked).", "quantifier": "all capacities, contents, positions; the exception at any of the moves", "why_tests_cant": "The exception may occur at each of the moves; the leak shows only when all destructors are counted.", "anchors": ["include/NazaraUtils/StackVector.inl: erase, emplace, insert, clear, ~StackVector"]}
{"id": "C124", "title": "An object that holds the guards of its slots is never called after its destruction", "statement": "If the objects of a program connect their member functions to signals only through ConnectionGuards that are their members (NazaraSlot), then no emission ever calls a member function on an object that does not exist, even if objects are created and destroyed by the member functions that run, the called object included; and emissions call every connected object. (False of connections that are not kept in guards, and of objects that are moved: the moved guards still refer to the old object.)", "quantifier": "every program: any sequence of creations and destructions of objects and signals, connections, disconnections, clears and (nested) emissions, with arbitrary member functions", "why_tests_cant": "Which objects are alive when a slot is reached depends on everything the callbacks before it have done.", "anchors": ["include/NazaraUtils/Signal.inl: Connect (member functions), operator(), ConnectionGuard::Connect, ConnectionGuard::Disconnect, ~ConnectionGuard", "include/NazaraUtils/Signal.hpp: NazaraSlot"]}
{"id": "C125", "title": "The small vector inside a signal always holds the sequence of its slots", "statement": "Whatever a program does with signals (connect, disconnect, clear, emit with callbacks that do all of this, move, destroy), every call that a signal makes on its HybridVector of slots is defined, and the size, the elements, the last element and the use of the fallback are those of the sequence of slots by which the other properties describe the signal; Connect gives the new slot the index of its element, and Disconnect gives the slots it moves the indices of their new elements.", "quantifier": "every world of signals, every operation, every emission with arbitrary callbacks", "why_tests_cant": "The vector switches from its inline element to the fallback, and keeps using it, depending on the history; all branches of every operation must be right in both states.", "anchors": ["include/NazaraUtils/Signal.inl: Connect, Disconnect, Clear, operator(), operator=(Signal&&)", "include/NazaraUtils/Signal.hpp: SlotList, m_slots, m_slotIterator", "include/NazaraUtils/FixedVector.inl: emplace_back, pop_back, back, operator[], clear, operator=(FixedVector&&), MoveStorageToFallback"]}
{"id": "C126", "title": "Objects of a memory pool may allocate other objects of the pool in their constructors", "statement": "A constructor that Allocate runs may make any calls on the pool that are allowed at that time: the entry of the object is taken first, then the calls of the constructor have their usual effect, then the object is there, to any depth of nesting.  So a program can keep trees in a pool whose nodes allocate their children in the constructor and free them in the destructor: after any history of making trees and freeing roots, the trees that are not freed can be read back from their roots, the pool has no other entries, freeing what was made leaves the pool as it was, and the destructor of the pool destroys every node exactly once.", "quantifier": "every reachable pool, every nesting of calls, every shape of trees, every history of making and freeing trees", "why_tests_cant": "The order of indices that makes the destructor of the pool safe follows from the order of nested allocations in pools with arbitrary holes; tests try few shapes and histories.", "anchors": ["include/NazaraUtils/MemoryPool.inl: Allocate, Free, Reset, ~MemoryPool", "include/NazaraUtils/MemoryHelper.inl: PlacementNew, PlacementDestroy"]}
{"id": "C127", "title": "Callbacks of signals may create, destroy and move signals", "statement": "A program, whose callbacks like its main function may create, destroy, move, connect to, disconnect from, clear and emit signals and throw exceptions, to any depth of nested emissions, never runs into undefined behaviour as long as it uses signals that exist; only connected slots are called, each with its own callback, by the innermost emission and with its argument, and the connections report at all times what is connected.  An emission that ends has called every slot that was connected to its signal from its beginning to its end, and none twice, whatever happened to other signals.", "quantifier": "every program that decides each step from all that happened so far, every nesting of emissions, every history of creations, destructions, moves and exceptions", "why_tests_cant": "The callbacks of one emission can change the signals of all emissions around it; the interleavings of nested emissions with the lives of signals are unbounded.", "anchors": ["include/NazaraUtils/Signal.inl: Signal, ~Signal, operator(), operator=, Connect, Disconnect, Clear"]}
{"id": "C128", "title": "Destructors of pool objects may use the pool", "statement": "An object of a memory pool may call Allocate and Free of that pool in its destructor, to any depth.  Free(index) then ends the object, runs the destructor, and makes the entry available when the destructor has ended, not before; the indices, objects and counts are those of the same calls made one after the other.  Clear and the destructor of the pool end every object, also those that are allocated by the destructors that they run.", "quantifier": "every pool that can be reached, every nesting of calls in constructors and destructors, every place of the object that allocates, every reallocation policy of the vector of blocks", "why_tests_cant": "Where the new object is placed, and whether the blocks are moved, depends on the whole history of the pool and on the standard library.", "anchors": ["include/NazaraUtils/MemoryPool.inl: Free, Reset, Clear, ~MemoryPool, Allocate, AllocateBlock"]}
{"id": "C129", "title": "Programs that copy and move connections, guards and signals", "statement": "Connections and guards name slots, any number of them the same slot; they are copied, moved, overwritten and destroyed in any order.  Each statement disconnects exactly the slots that its documentation says: Disconnect the one named; a guard that dies, connects again or is assigned to the one it named; overwriting or destroying a plain connection none.  A slot connected by a guard is never connected when no guard names it any more.  Copying a signal copies no slot, and assigning a copy changes neither signal.", "quantifier": "every program over any numbers of signals, connections and guards, with any emissions in between", "why_tests_cant": "Which variables name a slot at which time depends on the whole history of the program.", "anchors": ["include/NazaraUtils/Signal.inl: Signal(const Signal&), operator=(const Signal&), Connection, ConnectionGuard", "include/NazaraUtils/Signal.hpp: Connection, ConnectionGuard"]}
{"id": "C130", "title": "The operators of bitsets agree with the named functions", "statement": "Programs that use <<, <<=, >>, >>=, assignments of strings and unsigned integers, swap (member-wise or by three moves, also of a bitset with itself), Write from a pointer and output to a stream, mixed with all other calls, act on every variable as on a sequence of booleans; what is printed is the text of these sequences.  Bit i of a << p is bit i - p of a, bit i of a >> p is bit i + p of a, the size stays.  operator[] of a constant bitset reads the bit or fails its assertion.", "quantifier": "every program over any number of bitset variables, every size, shift and string", "why_tests_cant": "Shift distances, sizes and aliasing of the variables (d <<= p, a = a << p, swap(a, a)) have unboundedly many combinations.", "anchors": ["include/NazaraUtils/Bitset.inl: operator<<, operator<<=, operator>>, operator>>=, operator=, operator[], Swap, Write, std::swap"]}
{"id": "C131", "title": "The hash of a text does not depend on how the text is passed", "statement": "CRC32, FNV1a32 and FNV1a64 of a text give the same value, that of C47 and C48, whether the text is passed as a string literal, an array of char, a pointer, a std::string, a string_view or a pointer to bytes with a size, and whether the function is called directly, through its functor or through HashFunctor (which reduces it to std::size_t).", "quantifier": "every text, every type of the argument, every size of std::size_t", "why_tests_cant": "Which overload is called depends on the type of the argument; a test of literals never calls the overload of arrays.", "anchors": ["include/NazaraUtils/Hash.hpp: CRC32, FNV1a32, FNV1a64 (overloads)", "include/NazaraUtils/Hash.inl: CRC32Hash, FNV1a32Hash, FNV1a64Hash, HashFunctor"]}
{"id": "C132", "title": "A constant signal may be emitted by several threads", "statement": "Emitting a signal is a constant operation; when several threads emit one signal whose callbacks leave it alone, under any schedule, each emission calls every connected slot exactly once, in their order, and ends.  (True if an emission only begins when no other is in progress; when two emissions overlap, for every signal with slots there are schedules that read past the list of slots, and for every signal with two slots schedules in which one of the emissions misses all slots but the first.)", "quantifier": "any number of threads, every schedule of their accesses to the signal, any number of slots", "why_tests_cant": "Schedules: the failing interleavings are rare.", "anchors": ["include/NazaraUtils/Signal.inl: operator()", "include/NazaraUtils/Signal.hpp: m_slotIterator"]}
{"id": "C133", "title": "Floating-point numbers keep their bits in BitCast, ByteSwap and the endianness conversions", "statement": "BitCast of a float or double to the unsigned integer of its size gives sign, exponent and fraction as IEC 60559 lays them out, whatever the byte order, and BitCast back gives the original, NaNs and both zeros included; two positive values are ordered like these integers (equality is different: -0 and 0, NaN).  ByteSwap of a floating-point value has the bytes of the argument in the opposite order and is its own inverse; HostToBigEndian and HostToLittleEndian give on either host a value whose bytes in memory are in the announced order, and the conversions back restore the original.", "quantifier": "all values of float and double, infinities, NaNs and subnormal numbers included; both byte orders", "why_tests_cant": "2^64 values; tests try a few, and run on one kind of host.", "anchors": ["include/NazaraUtils/Algorithm.inl: BitCast", "include/NazaraUtils/MathUtils.inl: ByteSwap, ByteSwapImpl", "include/NazaraUtils/Endianness.inl: BigEndianToHost, LittleEndianToHost, HostToBigEndian, HostToLittleEndian"]}
{"id": "C134", "title": "Loops over the set bits may change the bitset", "statement": "A loop over IterBits() whose body changes the bitset, or other bitsets, by any allowed calls meets no failed assertion and no undefined behaviour. It goes from each index to the least greater one that is set when the body has been executed: no index is seen twice, each is set when it is seen, and all indices that are set from the beginning on and stay set are seen. It ends if the bodies stop making the bitset longer. (A body that leaves the bitset no longer than the current index makes the loop fail its assertion.)", "quantifier": "all block types, all reachable bitsets, every body (any function of the indices seen so far to lists of calls), loops of any length", "why_tests_cant": "All interleavings of an iteration with changes of what is iterated over.", "anchors": ["include/NazaraUtils/Bitset.inl: IterBits, BitIterator, FindFirst, FindNext", "include/NazaraUtils/Bitset.hpp: BitIterator"]}
{"id": "C135", "title": "Slots disconnected during an emission take the connections of their callbacks with them", "statement": "If callbacks own ConnectionGuards, a slot that is disconnected during an emission, by itself or because its signal is cleared, disconnects, before anything else happens, the slots of the guards its callback owns, those owned by their callbacks, and so on; nothing else is disconnected. The emission stays well defined, to any depth of nested emissions: none of these slots is called any more, none is connected afterwards, and the emission behaves as if callbacks that own nothing had disconnected the same slots. If callbacks only disconnect, the emission ends, calls no slot twice and calls every slot that stays connected. (False if a callback clears a signal one of whose callbacks owns a guard of another of its slots.)", "quantifier": "all reachable histories of signals, every ownership relation between callbacks and guards (cyclic ones included), every behaviour of callbacks (connect, disconnect, clear, emit), nested emissions of any depth", "why_tests_cant": "All ownership graphs and all interleavings of cascades of destructors with emissions.", "anchors": ["include/NazaraUtils/Signal.inl: operator(), Clear, Disconnect, Connection::Disconnect, ~ConnectionGuard"]}
{"id": "C136", "title": "Flags can be hashed", "statement": "std::hash of two Flags gives the same value if they contain the same enumerators, however they were computed, and different values for different sets if std::hash of the underlying integers is injective; Flags can be the keys of unordered containers. (The last part is false: the call operator is not const.)", "quantifier": "all enumerations of at most 64 enumerators, all pairs of programs that compute flags", "why_tests_cant": "All ways to compute the same set.", "anchors": ["include/NazaraUtils/Flags.inl: std::hash<Nz::Flags<E>>, operator T"]}
{"id": "C137", "title": "Powers of two and bit counts on signed types", "statement": "On a signed type, IsPow2, AlignPow2, RoundToPow2, GetNearestPowerOfTwo and CountBits in constant expressions give, for every value of the type, the answer they give on the mathematical integers whenever that is representable, and end without undefined behaviour otherwise: no negative value is a power of two, AlignPow2 rounds negative offsets up to the next multiple, CountBits counts the bits of the two's complement representation. (False for the least value of a type, above the greatest power of two of a type, and for CountBits on all negative values of 32 and 64 bits.)", "quantifier": "every value, offset and alignment of every signed integer type, before and from C++20 on", "why_tests_cant": "All values of all widths; the failures are at the ends of the range.", "anchors": ["include/NazaraUtils/MathUtils.inl: CountBits, AlignPow2, GetNearestPowerOfTwo, IsPow2, RoundToPow2"]}
{"id": "C138", "title": "A PrivateImpl is initialised by the constructor its argument calls for", "statement": "Constructing a PrivateImpl from another one copies it, or moves it if it is an rvalue that may be changed, however the other one is written: the template that passes arguments on to T never takes a PrivateImpl. A pointer that converts to T* is adopted, nullptr gives an empty one, no argument, several, or any other argument are passed on to the constructor of T. (False for objects of classes derived from PrivateImpl<T> and for pointers to objects of classes derived from T: both are passed on to T.)", "quantifier": "every list of arguments of every type, qualification and value category, over any hierarchy of classes, and every history before the construction", "why_tests_cant": "All types of arguments of all programs; tests instantiate a few, and the wrong choice often compiles.", "anchors": ["include/NazaraUtils/PrivateImpl.hpp: PrivateImpl constructors", "include/NazaraUtils/TypeTraits.hpp: PreventHiddenCopyMove, RemoveCvRef"]}
{"id": "C139", "title": "Appending the bits of a signed value", "statement": "AppendBits with a value of a signed type appends the low bits of its two's complement representation and nothing else: the bitset then shows the concatenation, and Count counts the set bits of the concatenation; values that are not negative give what the unsigned type gives. (False for negative values: every negative value appended with all its bits, int8_t(-1) with 8 bits, sets all the free bits of the last block, and Count counts them.)", "quantifier": "every bitset reached by any history, of every block width, every signed type and value, and every number of bits up to its width", "why_tests_cant": "All bitsets, values and alignments; the stray bits show only in some observers and only for negative values.", "anchors": ["include/NazaraUtils/Bitset.inl: AppendBits"]}
{"id": "C140", "title": "Callables may use the FunctionRef they are called through", "statement": "A program whose callables are programs themselves, with calls nested to any depth, does what it would do if every call through a FunctionRef were a call of the callable by its own name: same results and exceptions, same states of the callables, same variables bound. Callables may call themselves again through the same FunctionRef, rebind or destroy the FunctionRef they are called through, and end their own lifetime.", "quantifier": "every program and every set of callables that are programs, nested to any depth, without use of dead callables or of null FunctionRefs (C73)", "why_tests_cant": "All programs and depths of recursion; reentrancy shows only in some interleavings of calls and changes.", "anchors": ["include/NazaraUtils/FunctionRef.inl: FunctionRef, operator()"]}
{"id": "C141", "title": "Objects are in memory that is theirs and that suits them", "statement": "The objects a container places in memory (the entries of a MemoryPool, the elements of a FixedVector, StackVector or StackArray, the object in a PrivateImpl with a buffer) are at addresses that are multiples of their alignment, lie inside the memory the container has for them, and overlap neither each other nor other members of the container.", "quantifier": "every type (size and alignment), alignment and buffer size asked for, capacity, index, and address of the container or of its memory", "why_tests_cant": "The addresses a test sees are more aligned than promised by chance; sizes and alignments are without bound.", "anchors": ["include/NazaraUtils/MemoryPool.hpp: AlignedStorage", "include/NazaraUtils/MemoryPool.inl: AllocateBlock, GetAllocatedPointer", "include/NazaraUtils/FixedVector.hpp: m_data", "include/NazaraUtils/FixedVector.inl: data", "include/NazaraUtils/PrivateImpl.hpp: m_impl", "include/NazaraUtils/PrivateImpl.inl: Get", "include/NazaraUtils/StackArray.hpp: NazaraStackArray", "include/NazaraUtils/StackVector.hpp: NazaraStackVector", "include/NazaraUtils/MemoryHelper.hpp: NAZARA_ALLOCA"]}
{"id": "C142", "title": "A value converted to a Result is a success with this value", "statement": "Result<V, E>(x) with x of type V is a success that holds x, for every V and however x is passed; a Result of another type is converted to a success if it is one and to an error if it is one, with its content converted.", "quantifier": "every value type and error type (also Results nested to any depth), every type of the argument, lvalues and rvalues, const or not", "why_tests_cant": "All types; which constructor is selected depends on the types, on the constness and on the value category of the argument.", "anchors": ["include/NazaraUtils/Result.hpp: Result", "include/NazaraUtils/Result.inl: Result"]}
{"id": "C143", "title": "A Result constructed as an error is an error", "statement": "Result<V, E>(ErrorTag, args...) and Result<V, E>(Err(x)) hold the error E(args...), also for V = void, whenever E can be constructed from the arguments; ValueTag and Ok likewise hold the value.", "quantifier": "every error type and value type, every list of arguments", "why_tests_cant": "All types and argument lists; the special cases of std::optional that Result<void, E> goes through are easily missed.", "anchors": ["include/NazaraUtils/Result.hpp: ErrorTag, ValueTag", "include/NazaraUtils/Result.inl: Result"]}
{"id": "C144", "title": "Visiting a variant with Overloaded calls the handler of its alternative", "statement": "std::visit(Overloaded{handlers...}, variant) calls the handler written for the type of the alternative held, in whatever order the handlers are given and whatever conversions exist between the alternatives; a generic handler is called for the alternatives that have no handler of their own.", "quantifier": "every list of handlers (by value, by reference, const or not, generic), every list of alternatives, every conversion between them, variants that are lvalues or rvalues, const or not", "why_tests_cant": "All sets of handlers; which one is selected depends on how the variant is passed, and a test shows one way.", "anchors": ["include/NazaraUtils/TypeTraits.hpp: Overloaded"]}
{"id": "C145", "title": "IsComplete tells whether a type is complete", "statement": "IsComplete_v<T> is true where T is a complete type and false where it is not, at every use in a translation unit.", "quantifier": "every sequence of class definitions and uses of IsComplete_v, of any length, every type", "why_tests_cant": "The answer depends on the history of the translation unit before the use.", "anchors": ["include/NazaraUtils/TypeTraits.hpp: IsComplete"]}
{"id": "C146", "title": "The unbounded functions of a bitset take any index", "statement": "UnboundedSet(i, v) and UnboundedReset(i) enlarge the bitset if it has no bit i, the bits added being false, and give bit i its value; if there is not enough memory they throw and change nothing. UnboundedTest(i) is false for a bit that does not exist.", "quantifier": "every bitset and every value of std::size_t as index, npos included, allocations that succeed or fail", "why_tests_cant": "All values of std::size_t, among them those beyond every memory, for which the code computes with indices that wrap around.", "anchors": ["include/NazaraUtils/Bitset.inl: UnboundedSet, UnboundedReset, UnboundedTest, Resize"]}
{"id": "C147", "title": "The capacity of a bitset", "statement": "GetSize() is at most GetCapacity(). Reserve(n) makes the capacity at least n, never smaller, without changing a bit, or throws and changes nothing. As long as the size stays within the capacity, operations in place (set, reset, flip, resize, append, write, shift, AND, OR, XOR, NOT, clear) need no memory: they succeed whatever the allocator does and leave the capacity as it is; beyond it they need memory. Clear does not change the capacity, no operation in place makes it smaller.", "quantifier": "every history of operations and reservations, every block width, every behaviour of the allocator, every growth policy of the vector", "why_tests_cant": "All histories with all patterns of failing allocations and all ways a vector may grow.", "anchors": ["include/NazaraUtils/Bitset.inl: Reserve, GetCapacity, Clear, Resize, AppendBits, Write, PerformsAND, PerformsOR, PerformsXOR, PerformsNOT, UnboundedSet"]}
{"id": "C148", "title": "Clear called during an emission ends it", "statement": "Once a callback (directly, or through the emission of another signal) has cleared the signal that is calling it, this emission calls no more slots: neither the old ones nor slots connected after the Clear, however many are connected and disconnected. If the first callback clears the signal and emits nothing, the emission ends after this one call.", "quantifier": "every reachable state, all callbacks that do not emit the same signal again, every sequence of connections, disconnections, clears and emissions of other signals in them", "why_tests_cant": "All behaviours of callbacks, with emissions of other signals nested to any depth.", "anchors": ["include/NazaraUtils/Signal.inl: Clear, operator(), Connect, Disconnect"]}
{"id": "C149", "title": "Every slot of a signal gets the argument of the emission", "statement": "If the parameter of a signal is passed by value, every slot gets an object of its own with the value that the argument had at the emission, whatever the slots called before have done to their parameters and to the variables of the program; an lvalue argument is not changed. If it is a reference, every slot gets the argument itself (by-value slots a copy) and sees what the slots before have made of it; through const T& none changes it. Signals can be emitted for every form of the parameter for which functions can be connected.", "quantifier": "every list of slots with any parameter forms and any bodies, every form of the signal's parameter, every value category of the argument, every type with any moved-from state", "why_tests_cant": "All lists of slots with all behaviours.", "anchors": ["include/NazaraUtils/Signal.inl: operator(), Connect", "include/NazaraUtils/Signal.hpp: Callback"]}
{"id": "C150", "title": "A FunctionRef passes arguments on like a call of the function", "statement": "A call through FunctionRef<R(T&)> or FunctionRef<R(T&&)> passes the argument itself, as a call of the function does; through const T& a constant. Through a parameter by value the function sees the value of the argument in an object of its own; an lvalue argument is copied once and left as it is, an rvalue is moved and never copied, so that types work that can only be moved; compared with a call of the function there is one more move.", "quantifier": "every function with any parameter form and body, every value category of the argument, every type with any moved-from state", "why_tests_cant": "All bodies of the functions and all states of the variables.", "anchors": ["include/NazaraUtils/FunctionRef.inl: FunctionRef, operator()"]}
{"id": "C151", "title": "A FunctionRef can be made of exactly the callables that can be called, and calls what a call would call", "statement": "FunctionRef<R(Args...)>(f) compiles exactly if the call f(args...) compiles and its result converts to R, and calls the overload of f's operator() that this call would call; callables that cannot be called are refused by overload resolution, without errors from the body of the constructor.", "quantifier": "every callable with any set of overloads of operator() (const or not, any ref-qualifiers, any fit of the parameters, any results), every way to pass it", "why_tests_cant": "All sets of overloads; the rules are about programs that are refused by the compiler.", "anchors": ["include/NazaraUtils/FunctionRef.hpp: FunctionRef(F&&)", "include/NazaraUtils/FunctionRef.inl: FunctionRef(F&&)"]}
{"id": "C152", "title": "A FunctionRef made from a FunctionRef calls the same callable", "statement": "A FunctionRef made from, or assigned, another FunctionRef calls the callable that the other one referred to, whether they have the same signature or not, whatever happens to the other FunctionRef later, as long as the callable lives.", "quantifier": "every history of callables and FunctionRef variables with any signatures, made from callables and from each other in any order", "why_tests_cant": "All histories, with chains of references of any length.", "anchors": ["include/NazaraUtils/FunctionRef.hpp: FunctionRef(F&&), FunctionRef(const FunctionRef&), operator=", "include/NazaraUtils/FunctionRef.inl: FunctionRef(F&&), operator()"]}
{"id": "C153", "title": "Every declaration of a FixedVector makes the sequence that it says", "statement": "FixedVector<T, N> v(n, x), where n converts to the size type and x to T, makes n copies of x; v(first, last), for iterators, makes the elements of the range; v(n) makes n default elements; v{ x, y, ... } makes the listed elements if they all convert to T without narrowing, also where two of them could be read as a count and a value (false of v(n, x) where n and x have the same type, which is not the size type or not T: it does not compile).", "quantifier": "every element type, all types of arguments and all conversions between them, all capacities, with and without fallback, all values and ranges", "why_tests_cant": "All combinations of types; the failures are programs that the compiler refuses.", "anchors": ["include/NazaraUtils/FixedVector.hpp: FixedVector(), FixedVector(size_type, const T&), FixedVector(InputIt, InputIt), FixedVector(std::initializer_list<T>)", "include/NazaraUtils/FixedVector.inl: the same"]}
{"id": "C154", "title": "Whatever a Bitset is made from or assigned means what it says, and the rest is refused", "statement": "Bitset b(x) and b = x, for every x that is or converts to a text (const char*, std::string, std::string_view), make the bits of the text; for an integer, in every form, its binary digits; Bitset b(n, v) makes n bits of value v and Bitset b(text, n) the first n characters; every other x is refused by overload resolution (true of const char*, literals, std::string, std::string_view, integers; false of char*, of arrays of char and of all classes that convert to a text, which do not compile; false of floating point numbers, which are truncated; false of b(0, v) with an integer v; and nothing is refused by overload resolution).", "quantifier": "all kinds of expressions, all texts, integers, counts and block types", "why_tests_cant": "All types of arguments; the failures are programs that the compiler refuses or accepts with another meaning.", "anchors": ["include/NazaraUtils/Bitset.hpp: Bitset(std::size_t, bool), Bitset(const char*), Bitset(const char*, std::size_t), Bitset(const std::string_view&), Bitset(const std::string&), Bitset(T), operator=", "include/NazaraUtils/Bitset.inl: the same"]}
{"id": "C155", "title": "SparsePtrs of different types mix like pointers", "statement": "If U* converts to T*, a SparsePtr<T> and a SparsePtr<U> (for example of const X and of X) can be compared and subtracted in both orders, with the results for the addresses, SparsePtr<U> converts to SparsePtr<T>, and no other conversion is accepted; SparsePtr<T>(ptr, stride) takes a stride of every integer type (false of the subtraction of any two different types and of comparisons with the more general type on the right, which do not compile; all conversions are accepted by overload resolution; strides of type unsigned int or long are ambiguous).", "quantifier": "all pairs of types, all conversions between their pointers, all pointers, strides and types of strides", "why_tests_cant": "All pairs of types; the failures are programs that the compiler refuses.", "anchors": ["include/NazaraUtils/SparsePtr.hpp: constructors, operator-, operator==, operator<, deduction guides", "include/NazaraUtils/SparsePtr.inl: Reset, operator-"]}
{"id": "C156", "title": "Flags, enumerators and other types in one expression", "statement": "Every expression built from enumerators of E and Flags<E> with ~, &, | and ^, in any order, means the set of enumerators that it says wherever a Flags<E> is expected (construction, assignment, Set, Clear, Test, op=), whether E is an enum class or an unscoped enumeration; == compares the sets; conversions to bool and integers are explicit, and an integer of sufficient size gives the flags back; anything else than enumerators of E, Flags<E> and bit fields is refused. (False: enumerators of other unscoped enumerations and floating point numbers are taken as bits, numbers are cut to the width of the bit field; an enumerator of an unscoped E combined with a number is arithmetic on its value; the same happens with two enumerators where a namespace declares an operator of the same name; an enumerator or number cannot be the left operand of ==, a number not that of the operators.)", "quantifier": "all enumerations of at most 64 enumerators (scoped or not, any underlying type), all expressions and programs of any length, all other enumerations, integer types and values", "why_tests_cant": "All expressions, types and values; some failures are programs that compile and compute another set.", "anchors": ["include/NazaraUtils/Flags.hpp: constructors, operator bool, operator T, operators, FlagsOperators", "include/NazaraUtils/Flags.inl: the same"]}
{"id": "C157", "title": "From the declaration of an enumeration to its arrays and flags", "statement": "An EnumArray of an enumeration has one element for each enumerator that the enumeration declares (apart from Count and Max), and Flags of it have one bit for each: reading the element of an enumerator is defined, every element belongs to exactly one enumerator, the greatest flag is the last enumerator. (False for declarations with both Count and Max, with Max as an additional enumerator, with enumerators after Count, with an alias of an earlier enumerator before Count, with a first value above zero; flags of an enumeration without enumerators do not compile.)", "quantifier": "all declarations of enumerators of any length, with or without initialisers", "why_tests_cant": "All declarations; wrong ones compile, and reading the missing elements is undefined.", "anchors": ["include/NazaraUtils/TypeTraits.hpp: EnumValueCount", "include/NazaraUtils/Flags.hpp: GetEnumFlagMax", "include/NazaraUtils/EnumArray.hpp: EnumArray"]}
{"id": "C158", "title": "Movable wrappers made from other wrappers", "statement": "A MovablePtr, MovableLiteral or MovableValue constructed or assigned from a wrapper holds what that wrapper held, converted to its own type where the types differ (pointer to base class, other number type or default value); an lvalue source keeps its value, a source passed by std::move is left empty (construction) or with the former value of the target (assignment). (False for moves between wrappers of different types, e.g. from MovablePtr<Derived> to MovablePtr<Base>: the source keeps the pointer and both point to the object. A MovableValue of a class that can be made from anything does not copy the value of a non-const variable but wraps it.)", "quantifier": "all programs of any length over any number of wrappers of any types, all hierarchies and values, lvalues, const lvalues and rvalues", "why_tests_cant": "All programs, types and values; the failure is a program that compiles and leaves two owners.", "anchors": ["include/NazaraUtils/MovablePtr.hpp: constructors, operator=, operator T*", "include/NazaraUtils/MovablePtr.inl: the same", "include/NazaraUtils/MovableValue.hpp: constructors, operator=", "include/NazaraUtils/MovableValue.inl: the same"]}
{"id": "C159", "title": "Elements that use the vector they are in", "statement": "The constructors and destructors of the elements of a FixedVector or StackVector may themselves append and remove elements of that vector, read it and clear it: every object is constructed once in storage that is not in use and destroyed once, elements are in the order in which their constructors began, and pop_back, clear and emplace_back leave the vector with exactly the elements that were not removed; if the capacity is exceeded or the vector is empty, an assertion fails. (False: a constructor that calls pop_back destroys the object under construction; a destructor called by pop_back that appends constructs over the object being destroyed; a destructor called by clear that calls clear destroys its own object again, one that reads an earlier element reads a destroyed object, and one that removes more elements than there are behind its own destroys itself.)", "quantifier": "all vectors, capacities, kinds of elements and depths of nested constructors and destructors", "why_tests_cant": "All nestings of constructors and destructors of any depth.", "anchors": ["include/NazaraUtils/FixedVector.inl: emplace_back, push_back, pop_back, clear, operator[]", "include/NazaraUtils/StackVector.inl: emplace_back, pop_back, clear, resize, operator[]", "include/NazaraUtils/MemoryHelper.inl: PlacementDestroy"]}
{"id": "C160", "title": "Threads may use different elements of one container", "statement": "Several threads that read and write elements of one container without synchronisation, no thread using an element that another one writes, do not disturb each other: under every schedule there is no data race, every thread reads what it would read if it were alone, and each element ends with what its thread made of it. (True for FixedVector, StackVector, StackArray and EnumArray, and for bits of a bitset that are in different blocks. False for bits of one block: for every bitset and every two bits of a block there is a schedule after which a bit that a thread has set or flipped has its old value.)", "quantifier": "any number of threads, all programs of any length over elements or bits, every schedule", "why_tests_cant": "Schedules: the lost update needs an interleaving inside one call.", "anchors": ["include/NazaraUtils/Bitset.inl: Set, Reset, Test, Bit::Set, Bit::Flip", "include/NazaraUtils/FixedVector.inl: operator[]", "include/NazaraUtils/StackVector.inl: operator[]", "include/NazaraUtils/StackArray.inl: operator[]", "include/NazaraUtils/EnumArray.inl: operator[]"]}
{"id": "C161", "title": "Threads that use one memory pool", "statement": "Several threads that free, assign to and read entries of one pool without synchronisation, no thread using an entry that another one frees or assigns to, do not disturb each other: under every schedule there is no data race, no call fails, every thread reads what it would read if it were alone, and the pool ends as if the threads had run one after another. (True if no two threads free entries of one block, and no thread frees an entry whose flags are in the same word as those of an entry that another thread uses. False otherwise: for every pool and every two entries of a block, threads that free them race, and there is a schedule after which the pool counts an entry that is no longer in use. Two threads that allocate may be given the same entry.)", "quantifier": "all pools that calls can build, any number of threads, all lists of calls of any length, every schedule", "why_tests_cant": "Schedules: the lost update of the counter needs an interleaving inside one call.", "anchors": ["include/NazaraUtils/MemoryPool.inl: Free, RetrieveFromIndex, Allocate, GetAllocatedPointer", "include/NazaraUtils/Bitset.inl: Set, Test"]}
{"id": "C162", "title": "CRC32 and two changed bits", "statement": "If exactly two bits of a byte sequence are changed, however far apart, its CRC32 changes. (True for every sequence of less than 512 MiB; the values are equal exactly if the distance of the bits is a multiple of 2^32 - 1, so every sequence of 512 MiB or more has another one that differs in two bits and has the same CRC32.) In general two sequences of the same length have the same CRC32 exactly if the generator polynomial of CRC-32 divides the difference of their polynomials over GF(2).", "quantifier": "all byte sequences of any length, every pair of bits", "why_tests_cant": "The number of pairs of bits and of messages is out of reach; the smallest undetected pair needs a message of 512 MiB.", "anchors": ["include/NazaraUtils/Hash.inl: CRC32"]}
{"id": "C163", "title": "A hash combined from several values depends on each of them", "statement": "If one of the values whose hashes are combined (by HashCombine called for one after the other, or by the variadic form) is replaced by one with another hash, the combined hash changes; so it does if two values are exchanged or one is added. (True for the last value, and for exchanging two. False for every other position: whatever the other values are, there are two hashes of this value that give the same result; and every value has exactly one hash that can be added without effect.)", "quantifier": "all sequences of hashes of any length, every position, every seed, every std::hash<std::size_t>", "why_tests_cant": "Collisions of 64-bit hashes do not show up in tests.", "anchors": ["include/NazaraUtils/Hash.inl: HashCombine"]}
{"id": "C164", "title": "A message followed by its CRC32 passes one test, and nothing else does", "statement": "The CRC32 of a message that is followed by its own CRC32 (least significant byte first) is the constant 0x2144DF1C, and no other four bytes after the message give this constant. Wherever four bytes are in a message, each value is the CRC32 of exactly one choice of these bytes, so a CRC32 is no protection against intentional changes. Changing the same bits in two messages of one length changes their CRC32 by the same bits. Texts that end alike have equal CRC32, or FNV-1a, hashes exactly if the parts before have.", "quantifier": "all messages of any length, all four bytes at all positions, all sets of changed bits", "why_tests_cant": "A test checks the constant on some messages; that nothing else passes ranges over all of them.", "anchors": ["include/NazaraUtils/Hash.inl: CRC32, FNV1a32, FNV1a64"]}
{"id": "C165", "title": "FNV-1a detects every change of a few consecutive bytes", "statement": "Two texts of the same length that differ only within three consecutive bytes have different FNV-1a hashes of 32 bits, and two that differ only within six consecutive bytes have different FNV-1a hashes of 64 bits; so no two texts of the same length of at most three (six) bytes share a hash. For four and seven bytes this is false everywhere: whatever is before and after, there are two pieces of four (seven) bytes between that give the same hash.", "quantifier": "all texts of any length, all positions, all pieces of at most three or six bytes", "why_tests_cant": "2^48 pieces at every position of every text.", "anchors": ["include/NazaraUtils/Hash.inl: FNV1a32, FNV1a64"]}
{"id": "C166", "title": "CRC32 detects every change of three bits up to 11454 bytes", "statement": "Two messages of the same length of at most 11454 bytes that differ in exactly three bits have different CRC32s. So a message sent with its CRC32 (least significant byte first), of at most 11454 bytes together, in which three bits were changed on the way, in the message or in the CRC32, never gives the constant that the CRC32 of an unchanged one gives. The limit is exact: for every message of at least 11455 bytes there is another of the same length that differs in three bits and has the same CRC32.", "quantifier": "all messages up to the limit, all triples of changed bits; for the limit, all longer messages", "why_tests_cant": "About 10^14 triples of positions for messages of the greatest length.", "anchors": ["include/NazaraUtils/Hash.inl: CRC32"]}
{"id": "C167", "title": "The initialisers of an EnumArray go to the enumerators in order", "statement": "`EnumArray<E, V> x { ... }` gives each enumerator the value of the initialiser at its place, the value that `V v = initialiser;` would have, and zero to the enumerators after the last initialiser; more initialisers than enumerators are refused. This holds with three pairs of braces for all types of values and all initialisers, and with one or two pairs for expressions. (It does not hold for initialisers in braces with one or two pairs: two or more of them are refused, and a single one can be spread over several enumerators.) An EnumArray or a std::array of the same type is copied.", "quantifier": "all types of values made of numbers, classes and arrays, all numbers of enumerators, all lists of initialisers", "why_tests_cant": "The types and initialisers are unlimited, and a test only sees those that compile.", "anchors": ["include/NazaraUtils/EnumArray.hpp: EnumArray"]}
{"id": "C168", "title": "Hashes see zero bytes that are inserted or left out", "statement": "Zero bytes inserted anywhere into a message, or left out, change its CRC32, unless their number is a multiple of 2^32 - 1 or the part of the message before them has the CRC32 0xFFFFFFFF (then no number of zero bytes at this place is seen; every message can be continued by exactly one piece of four bytes to such a part). They change its FNV-1a hashes as long as they are less than 2^(30 - j) bytes (2^(62 - j) for 64 bits) and the hash of the part before them is not a multiple of 2^(j + 1); after a part with the hash zero, which exists, they are never seen. Before a message they are always seen below these limits.", "quantifier": "all messages, all places, all numbers of zero bytes", "why_tests_cant": "The statement is about every length of padding, up to 2^62 bytes, of every message.", "anchors": ["include/NazaraUtils/Hash.inl: CRC32, FNV1a32, FNV1a64"]}
{"id": "C169", "title": "Every slot of a signal gets all the arguments of the emission", "statement": "Emitting a signal with any number of parameters calls every slot with all arguments at their places: parameters by value have the values that the arguments had when the signal was emitted, for every slot, whatever the slots before it did to their parameters or to the variables of the program; references are the variables themselves, so that a slot sees what the slots before it assigned to them. The variables are changed only by the slots, and by `std::move`. This does not depend on the order in which the compiler initialises parameters, as long as no variable is given to the signal with `std::move` and a second time (then it does: the other parameter may get a moved-from value).", "quantifier": "all numbers and kinds of parameters, all arguments (also the same variable several times), all slots and what they do, all orders of initialisation", "why_tests_cant": "A test runs one combination of parameters with the order of one compiler.", "anchors": ["include/NazaraUtils/Signal.inl: operator()"]}
{"id": "C170", "title": "A FunctionRef hands all arguments to its function", "statement": "Calling a FunctionRef with any number of parameters calls the function once, with every argument at its place and with the values the arguments have, for every mix of parameters by value and by reference in the signature and in the function and for every order in which the compiler initialises parameters. A variable is moved from if and only if it was given with std::move and a parameter by value takes it over; what the function assigns to its parameters reaches the variables where the signature and the function both have references. All this as long as no variable is moved from and given a second time: with a parameter by value in the signature and T&& in the function, ref(std::move(x), x) gives the function a moved-from second argument where a call of the function itself does not.", "quantifier": "all numbers and kinds of parameters, all arguments (also the same variable several times), all functions, all orders of initialisation", "why_tests_cant": "A test runs one combination of parameters with the order of one compiler.", "anchors": ["include/NazaraUtils/FunctionRef.inl: FunctionRef, operator()"]}
{"id": "C171", "title": "Retrieve works with multimaps and with keys of another type", "statement": "Retrieve in a map that may have several entries of a key, with a key of the map's type or of another type that the map can compare with, gives a reference to an entry whose key is equivalent to the one looked for; the reference refers to this entry as long as it is not erased, whatever is inserted, erased or assigned elsewhere, also under the same key. If there is one such entry, it is that one in all implementations of the standard library; if there is none, the assertion fails, and without assertions the behaviour is undefined. With several, a second Retrieve of the same key may give another entry once an entry was inserted.", "quantifier": "all histories of insertions, erasures and assignments; all keys, values and comparisons; all implementations of find", "why_tests_cant": "A test sees the choice of one implementation of find, in the histories it runs.", "anchors": ["include/NazaraUtils/Algorithm.inl: Retrieve"]}
