# Formal model of NazaraUtils in Lean 4

The code under study is the header-only C++ library in `/repo/include/NazaraUtils`
(pinned commit).  Properties are listed in `properties.jsonl`, the status of each in
`MANIFEST.json`, experiments with seeded bugs in `seeded/LOG.jsonl`.

## 1. Method

* The model is written function by function as total, computable Lean definitions in
  `lean/Verif/<Unit>/Model.lean`.  Every definition cites the file and lines it models.
* Undefined behaviour, failed assertions, thrown exceptions and non-termination are *outcomes*
  of the model (`Verif.Cpp.Err`), not things assumed away: a shift by the whole width of the
  promoted type, a read or write outside a container, a read of an element that is not alive,
  etc. evaluate to an error.  A theorem "returns `ok x`" therefore also says "no undefined
  behaviour".
* Loops are modelled as loops (`Verif.Cpp.forUp`, `forDown`, or recursion on a decreasing
  measure), with the in-place updates in the order of the code, and proved with invariants.
* Specifications are separate and small (`Spec.lean` of each unit, or plain Lean/Mathlib
  notions such as `List`, `Nat`, `BitVec.getLsbD`): lists of booleans for bitsets, lists for
  vectors, finite sets/maps for pools and signals, polynomials division bit by bit for CRC.
* The property theorems are in `Props.lean` of each unit; helper lemmas in `Lemmas.lean`.
  Next to each property theorem an `example` instantiates its hypotheses on a concrete
  non-trivial state.
* Where the code does **not** satisfy the property, the theorem of the full property is refuted
  by a theorem exhibiting the counterexample (suffix `_violated`), and the part that does hold is proved under
  its exact guard with the suffix `_partial`.

## 2. Trusted base

* Lean 4.33 kernel, and the axioms `propext`, `Classical.choice`, `Quot.sound` (nothing else;
  no `native_decide`/`bv_decide`, no axioms of our own).
* The reading of C++: two's complement integers, integral promotion of 8/16-bit types to a 32-bit
  `int`, 64-bit `size_t`, CHAR_BIT = 8, `std::vector`/`std::variant`/`std::shared_ptr`/
  `std::function` behave as specified by the standard.
* Assertions (`NazaraAssert`) are modelled as enabled; a failed assertion is the outcome `assert`.
* `size_t` counters (sizes, indices) are natural numbers: 2^64 elements cannot be stored.  Where
  a `size_t` computation wraps in the code for reachable values the wrap is modelled.
* Memory exhaustion (`std::bad_alloc`) is modelled in BitsetAlloc, MemoryPoolAlloc and FixedVectorAlloc (C97, C98, C100-C102) only.

## 3. What is modelled, per unit

| unit | files | properties |
|---|---|---|
| Cpp | (semantics helpers: outcome monad, loops, integer promotion) | all |
| MathUtils | MathUtils.inl | C13-C15, C17-C24 |
| Bitset | Bitset.hpp/.inl | C01-C12, C59-C61 |
| Exec, Memory | (state and exceptions; storage slots with checked lifetimes, MemoryHelper.inl placement functions) | C25-C43, C62, C63 |
| FixedVector | FixedVector.hpp/.inl (also HybridVector) | C25-C28, C62 |
| StackVector / StackArray | StackVector.*, StackArray.* | C29-C31, C63, C64 |
| MemoryPool | MemoryPool.* (on top of the Bitset model) | C32-C37, C65, C66 |
| Signal | Signal.* | C38-C43, C67, C96 |
| Flags | Flags.* | C44, C45 |
| SparsePtr | SparsePtr.* | C46, C68, C69 |
| Hash | Hash.* | C47-C50, C70 |
| Endianness | Endianness.* | C16 |
| Result | Result.* | C51, C71 |
| Movable, CallOnExit, PrivateImpl, FunctionRef | MovablePtr.*, MovableValue.*, CallOnExit.*, PrivateImpl.*, FunctionRef.* | C52-C54, C72, C73 |
| TypeList, EnumArray, SafeCast, TypeName | TypeList.*, EnumArray.*, Algorithm.inl (SafeCast, SafeCaster, PointerToInteger, IntegerToPointer), TypeName.inl | C55-C58, C74-C76 |
| FloatMath | MathUtils.inl (Approach, Clamp, DegreeToRadian, IsFinite, IsInfinity, IsNaN, Lerp, Mod, MultiplyAdd, NumberEquals, RadianToDegree), Constants.inl | C77-C85 |
| Assert | Assert.hpp, Assert.inl | C86, C87 |
| SafeCast (ModelFloat, PropsFloat) | Algorithm.inl (SafeCast to floating-point types) | C88 |
| Strings | StringHash.*, StringUtils.*, PathUtils.* | C89, C90 |
| UniquePtr | Algorithm.inl (StaticUniquePointerCast) | C91 |
| FixedBitset | Bitset.hpp (FixedBitset), the growing functions of Bitset.inl | C92 |
| FunctionTraits | FunctionTraits.hpp (all) | C93-C95 |
| BitsetAlloc | the allocating operations of Bitset.inl with `std::bad_alloc` | C97 |
| MemoryPoolAlloc | `Allocate` and `AllocateBlock` of MemoryPool.inl with `std::bad_alloc` | C98 |
| FixedVector (moves) | `push_back(T&&)` and its use by move assignment, FixedVector.inl | C99 |
| FixedVectorAlloc | the same functions of FixedVector.inl with the capacity and the buffer of the fallback container and `std::bad_alloc`; `std::vector` is modelled as: allocates exactly when the capacity is exceeded, any growth policy, no effect if it throws; self-assignment and throwing element types are left to C27 and C28 | C100-C102 |
| StackAlloc | the macros of StackVector.hpp and StackArray.hpp, `NAZARA_ALLOCA` of MemoryHelper.hpp (expressions are functions of the program state; `size_t` has 64 bits; the alignment of the memory and the exhaustion of the stack are left out); the frames of active functions | C103, C104 |
| CallOnExit (nested) | the same functions with functors whose bodies call `CallAndReset`, `Reset` or the destructor of guards; no moves, no exceptions | C105 |
| Result (helpers) | `Ok`, `Err`, `ResultValue`, `ResultError` of Result.hpp and their conversion to `Result`, with the lifetimes of the objects they refer to | C106 |
| HybridBitset | `Bitset` over `FixedVector` with a fallback: all functions of the Bitset unit, `Reserve`; allocations do not fail | C107 |
| Iterators | `FixedVector.inl`, `StackVector.inl`, `StackArray.inl`: begin, end, rbegin, rend, data, size, empty; erase and insert on iterators; `std::launder` is the identity; the buffer of the fallback is a single one | C108, C109 |
| Callbacks: captures and arguments | `Signal.inl`: operator(), with the lifetime of the callable in the slot and the value of the argument | C110, C111 |
| Object representations | `Algorithm.inl`: BitCast, AccessByOffset; `OffsetOf.hpp`; types are integers, float, double, bool and structures, with the layout of the usual ABIs | C112, C113 |
| Retrieve | `Algorithm.inl`: Retrieve on node-based maps, with lifetimes of the nodes | C114 |
| FixedVector (exceptions) | the functions of FixedVector.inl that move elements, with moves that may throw; constructors and what is destroyed when they throw (delegating constructors call the destructor, others do not); `noexcept` | C115, C116 |
| Signal (nested emissions) | `operator()` with callbacks that emit signals | C67, C117 |
| Signal (ownership, memory) | `Disconnect`, `Clear`, `~Signal` with callbacks that own guards; `Connect` and moves with allocations that fail | C118, C119 |
| MemoryPool (programs) | loops whose bodies change the pool; `Free`, `Reset`, `Clear`, `~MemoryPool` with destructors that free entries | C120, C121 |
| StackVector (exceptions) | `emplace`, `erase` with moves that throw; arguments that are elements | C122, C123 |
| Signal (objects) | the overloads of `Connect` for member functions, `ConnectionGuard`, `NazaraSlot`, with the lifetimes of the objects | C124 |
| Signal (vector) | the calls of `HybridVector<SlotPtr, 1>` in `Connect`, `Disconnect`, `Clear`, `operator()`, moves, written with the model of FixedVector | C125 |
| MemoryPool (constructors) | `Allocate` with constructors that make calls on the pool, to any depth; trees that are built by constructors and freed by destructors | C126 |
| Signal (lives) | whole programs whose callbacks create, destroy and move signals, and throw | C127 |
| MemoryPool (spawn) | objects whose destructors allocate, `Free`, `Reset` with the reference to the block | C128 |
| Signal (variables) | programs with variables of the classes `Signal`, `Connection` and `ConnectionGuard`, their copies and moves | C129 |
| Bitset (operators) | the shift operators, assignments of strings and integers, `Swap`, `std::swap`, `Write` from a pointer, stream output | C130 |
| Hash (calls) | overload resolution among the overloads of the hash functions, the functors, `HashFunctor`, `HashCombine` with 32-bit `std::size_t` | C131 (C50) |
| Signal (threads) | `operator()` as small steps of several threads on the shared iterator | C132 |
| Floating-point objects | `MathUtils.inl`: ByteSwap of float and double; `Endianness.inl` with floating-point types | C133 |
| Bitset (loops) | `IterBits` and `BitIterator` in loops whose bodies change the bitset | C134 |
| Signal (ownership in emissions) | `operator()` with callbacks that own guards and connect, disconnect, clear and emit | C135 |
| Flags (hash) | `std::hash<Flags<E>>` | C136 |
| MathUtils (signed) | `CountBits` (compile-time path), `IsPow2`, `AlignPow2`, `RoundToPow2`, `GetNearestPowerOfTwo` on signed types | C137 |
| PrivateImpl (constructors) | which constructor a call selects, with `PreventHiddenCopyMove` and `RemoveCvRef` | C138 |
| Bitset (signed values) | `AppendBits` with signed types | C139 |
| FunctionRef (nested) | `operator()` with callables that are programs over callables and `FunctionRef` variables | C140 |
| Storage | addresses: `AlignedStorage`, `GetAllocatedPointer`, `FixedVector::m_data`, `data`, `PrivateImpl::m_impl`, `Get`, the macros of StackArray and StackVector | C141 |
| Result (constructors) | overload resolution among the constructors of `Result`, nested Results; `ErrorTag`, `ValueTag`, `Ok`, `Err` with any arguments | C142, C143 |
| TypeTraits | `Overloaded` under `std::visit` (overload resolution among the handlers); `IsComplete` in a translation unit | C144, C145 |
| BitsetAlloc (indices) | `UnboundedSet`, `UnboundedReset`, `UnboundedTest` with indices in 64 bits | C146 |
| BitsetAlloc (capacity) | `Reserve`, `GetCapacity`, operations in place on a vector with a capacity | C147 |
| Signal (clear) | `Clear` inside emissions, on the model of C38-C43 | C148 |
| Args | the parameter of `Signal::operator()`, of the callbacks and of `FunctionRef::operator()`: copies, moves, references | C149, C150 |
| FunctionRef (constructors) | overload resolution of `operator()` in the check and in the body of `FunctionRef(F&&)`; FunctionRefs of several signatures made from each other | C151, C152 |
| FixedVector (declarations) | overload resolution among the constructors, for parentheses and braces, with the types and conversions of the program as parameter | C153 |
| Bitset (constructors, assignments) | overload resolution among the constructors and assignment operators for all kinds of expressions | C154 |
| SparsePtr (several types) | overload resolution of conversions, comparisons, differences and stride types, with the types of the program as parameter | C155 |
| Flags (several types) | overload resolution of constructors, conversions and operators among flags, enumerators (scoped or not), integers, floating point numbers, other enumerations and their flags; promotion and usual arithmetic conversions; name hiding | C156 |
| Declarations of enumerations | values of enumerators ([dcl.enum]), `EnumValueCount`, `GetEnumFlagMax` | C157 |
| Movable wrappers (several types) | overload resolution of constructors and assignments for wrappers of the same and of other types | C158 |
| FixedVector, StackVector (elements that use the vector) | emplace_back, pop_back, clear, operator[] called by constructors and destructors of elements | C159 |
| Threads | accesses of Set, Reset, Flip and Test of bits and of operator[] of vectors and arrays, interleaved by a schedule | C160 |
| MemoryPool/ModelThreads | the loads and stores of Free, of the second half of Allocate and of uses of entries, interleaved by a schedule | C161 |
| EnumArray (initialisation) | aggregate initialisation with brace elision of the class, its base `std::array` (an aggregate of one array) and the values; numbers, classes without constructors, arrays | C167 |
| Args (several) | `Signal::operator()(Args...)` with any number of parameters of one type up to references and `const`; one order of initialisation for all calls, any order; bodies assign to their parameters last | C169 |
| Args (several, FunctionRef) | `FunctionRef::operator()` with any number of parameters, as for signals | C170 |
| Retrieve (multimaps) | `Retrieve` with `std::multimap`, `std::unordered_multimap` and with transparent comparison; `find` picks any entry of the key | C171 |

Not modelled: `DebugBreak.hpp`, the platform and compiler detection of `Prerequisites.hpp` and `ConstantEvaluated.hpp` (two evaluation
contexts are a parameter of the model where they matter), `TypeTag`, conversions of encodings by the standard library.

## 4. Plan per property

* C01 model: blocks `List (BitVec w)` and a bit count, each method transcribed with its loops.
  Invariant `#blocks = ceil(n/w)` and no bit at or past `n`; abstraction function to `List Bool`.
  Proof: each operation preserves the invariant and commutes with the list operation
  (refinement); histories by induction over operation lists.
* C02-C05, C10-C12: corollaries of the refinement, each with its own list/Nat specification.
* C06: digits of a natural number (`Nat.testBit`); the sign-extending conversion from negative
  narrow signed integers is a counterexample, kept apart.
* C07, C08: refuted on unaligned appends that end inside the current block (stray bits) and on full
  last blocks of 32/64 bits (shift by the width); proved under the exact guard (`_partial`).
* C09: refuted (two blocks; different block counts); proved for single-block bitsets (`_partial`).
* C13: loops of the compile-time path = specification; the compiler builtins of the run-time path by their
  documented meaning on the promoted argument.
* C14: the 256-entry table checked entry by entry in the kernel (`decide`), general width by induction on bytes.
* C15, C16: bytes as `BitVec` slices; both endiannesses as a parameter.
* C17: the de Bruijn tables for all 32-bit values through the reduction to 2^k - 1, all 32 cases; refuted for
  64-bit values whose high word is 1, partial otherwise.
* C18-C24: arithmetic on `Nat`/`Int`/`BitVec w`, generic width.
* C25-C31: memory as slots `raw`/`alive v`/`moved`; each element operation checks the slot state; contents
  refine `List`; histories by induction.  Constructor throws: an oracle decides which construction throws.
* C62: constructor arguments are values or references to storage slots, read when the element is constructed; refuted for
  growth to the fallback and for insertion before the aliased element, partial otherwise.
* C63: handles on a heap of buffers, as C30.
* C64: the exception oracle of the FixedVector model; refuted for emplace_back/push_back/emplace and the array constructor.
* C32-C37: pool = list of blocks with the two bitsets of the code and memory slots; invariant linking the
  bitsets, counter and slots.
* C38-C43, C67: signal = list of slots (id, index), iteration cursor; callbacks as arbitrary scripts of
  connects/disconnects; ghost log of calls; invariant over the cursor.
* C44-C46: `BitVec` algebra; SparsePtr with `Int` addresses and the C++ arithmetic conversions.
* C68, C69: as C46; refuted for negative strides and for base classes at an offset other than 0.
* C47-C50: bit-level CRC as specification; the table entry of `i` is proved to be eight steps of the shift register started with `i`; state transition bijective. CRC32 is also proved to be the remainder of polynomials over GF(2) (Mathlib's `%ₘ`).
* C70: eight (at most 32) steps of the register are linear and injective in the bits they consume.
* C51, C71: contents as `Except E V`; contained types with arbitrary moved-from states and throwing copies and moves; histories over a store of results; the macros as a state-and-error monad.
* C52-C54, C72: small state machines; ownership histories by induction; PrivateImpl on a heap of addressed objects (both storage forms).
* C73: callables by address with lifetimes, type-erased callback as the type it casts to; refinement to names of callables; refuted for temporaries and null.
* C55: types are abstract symbols; template recursion as list recursion.
* C56: underlying type as (signedness, width), arrays as lists; key-value iterators as positions, histories of moves, loops with fuel.
* C57, C74-C76: arithmetic; type pairs as (signedness, width) parameters; floating-point values as rationals, infinities and NaN with the precision as a parameter; refuted for the cases of section 5.
* C58: string search functions on `List Char`; refuted for spellings longer than the prefix position, partial otherwise.
* C77-C85: floating-point formats by precision and exponent range (`Fmt`; float, double and 80-bit long double are instances), values as
  rationals of the format, infinities and NaN; operations are the exact rational result rounded to nearest, ties to even, with gradual underflow
  and overflow to infinity (IEEE 754). Simplifications: one zero and one NaN; `FLT_EVAL_METHOD` 0; default rounding mode. Rounding is proved
  nearest, monotone and odd once; the properties follow from that and from Sterbenz' lemma, for all formats with at least 3 digits. C83 compares
  with the reals of Mathlib (bounds of pi and of square roots). Refuted for the cases of section 5.
* C86: statements as token lists with the grammar of C++ for `if`/`else` (dangling else); the macros as replacement of tokens; big-step execution. Refuted for an
  assertion followed by `else`, partial otherwise.
* C87: `fprintf` with %s, %d and %% on characters.
* C88: the formats of C77-C85; refuted for rounding, lvalues and integers.
* C89, C90: strings as lists of characters, views with the address they refer to, C strings as arrays cut at the first null.
* C91: objects by address, variables with static class and pointer; invariant of ownership, histories by induction.
* C92: the growing functions over a container with the effect of FixedVector; each is the unbounded one if the result fits and fails otherwise.
* C93-C95: types in normal form, partial specialisations and overload resolution as functions that may fail (the compiler rejects the program); exact characterisations over all types and overload sets.
* C96: emission with callbacks that may throw or catch (`emitX`), an operation of the same histories as C38-C43, so that the invariant is proved with exceptions included.
* C97: the allocating operations again, in a monad that keeps the state when an exception leaves; which growths of the vector succeed is an arbitrary function.
* C98: a pool after failures is a pool of C32 followed by at most one unusable block; every call is shown to act on the first part only, or to fail.
* C99: the model of `push_back(T&&)` returns what is left in the argument; it is related to the storage in use after the call, and the loop of the move operations carries this through.
* C100-C102: the model adds to each call whether it allocates, and an oracle that grants or refuses; each call is shown to be one of: done without allocating, done with one allocation, or thrown without effect. `std::terminate` of `noexcept` functions is an error of its own.
* C103: expressions are state transformers, the macros paste them as the preprocessor does; connected to the histories of C29. C104: a machine with a stack of frames; invariants over all programs.
* C105: calls with a bound on the nesting depth (`diverge` beyond it); by induction on the declaration order, every call leaves each earlier guard either armed with nothing logged, or used up with one event.
* C106: objects with lifetimes, variables that hold helpers and results; theorems over all steps between the call and the conversion.
* C107: a variable is its bitset and whether the fallback is in use; invariant over histories: the bits are those of the specification, and the fallback is in use iff the variable has been wide. The container members are proved from the FixedVector model.
* C108-C109: a pointer is a place of the inline storage or of the fallback; loops with an iteration bound, by induction on the rest of the sequence; references by the exact state after each call.
* C110-C111: the emission loop with uses of captures and assignments to the parameter; C110 by equality with the emission without them; C111 by induction along the loop.
* C112-C113: bytes of objects by recursion over types; decoding inverts encoding by mutual induction over types; members by decomposition of the bytes of the structure.
* C114: refinement to partial functions by induction over histories.
* C115-C116: the exception oracle of C28 counts moves as well; the state after an exception is computed for every exception point and then destroyed.
* C117: `Complete`, an inductive description of the events of nested emissions; by induction on the fuel, with the invariant that an inner emission changes only iterators of signals of lower level.
* C118: the slots disconnected form the closure of an ownership graph; by induction on the number of connected slots; for Clear, a world in which the remaining slots are hidden is kept in correspondence with plain calls. C119: by cases on the allocation.
* C120: the loop refines the abstract loop `visits` (least index in use above the current one), by induction on the number of visits. C121: by induction on the depth of the tree; `Reset` with the invariant that the first blocks hold no objects; the converse from the fact that an object that owns an entry without object cannot be destroyed.
* C122, C123: the operations are those of the model of `FixedVector` without fallback (equalities of functions), so C62 and C115 carry over.
* C124: programs with objects that hold guards; invariant: every slot is held by a guard of the object that it calls; by induction over the program and the nested emissions.
* C125: the member functions of signals written with those of the vector; a relation between vectors and lists that every operation keeps; emissions by induction over the nesting.
* C126: nested calls are flattened to a history; trees by induction over their shape, with the invariants that a node has the first free index and that all indices before it are in use; the programs keep that the pool holds their trees and nothing else.
* C127: an invariant of worlds and logs, kept by each step of a program: the relation of C38-C43, the signals being emitted are there, and for each emission that goes on, which slots before and after its iterator have been called; induction over the fuel.
* C128: nested calls are flattened into a history (as C126); `Reset` is followed object by object up to the one that allocates, whose `Allocate` is that of C32 in the first block, and that of a block whose bits are stale (C37) in later ones.
  With any number of such objects, destroying an object with its entry still in use is the state of `DeferConstruct` (C32), so the sweep of the first block is a history of C32; an
  object left behind in the first block stays there (`Kept`), which gives the other direction of `C128_exact`.
* C129: each statement is at most one disconnection followed by one connection of C40, so the state of the signals is reachable in the sense of C38; the rest is an induction over the program.
* C130: each statement is reduced to a call of C01; swapping member by member and by three moves are shown to be the exchange of two variables.
* C131: the rules of overload resolution are modelled by a table of conversions with their ranks; the exact texts for which an array hashes as its literal come from the fixed points of eight steps of the shift register (x^8 + 1 = (x + 1)^8) and of the multiplication by the FNV primes.
* C132: small-step semantics with an arbitrary scheduler; invariant over all schedules for emissions that do not overlap, explicit schedules for the violations (for every number of slots).
* C133: float and double as types of the model of object representations; the number of an object and the integer of its bits by a common count of units; byte orders from C15.
* C134: the loop of the code against a loop on sequences of booleans; an invariant of the loop (the trail of the indices seen) gives the properties of the indices.
* C135: each cascade is a list of plain disconnections that depends only on what is connected, and `Clear` is a plain `Clear` followed by one; from the events of an emission, callbacks without guards are built that produce the same events, so the theorems on emissions (C39, C42) carry over.
* C136: by C44, flags are equal exactly if the sets are.
* C137: the signed operations as operations on bit vectors of the promoted width; then C13, C19 for the values that are not negative, top bits for the smearing of negative ones, induction on the number of set bits and on the exponent for the loops.
* C138: ranks of the conversions of the argument to the parameter of each constructor, best viable one; case analysis over types, and C54 for the effect.
* C139: the loop on the signed value and the loop of C07 on the value with its sign extended run in step, except for complete values narrower than an empty last block, which are computed directly.  More bits than the type has: closed form of the new blocks, then case by case.
* C140: relation of C73, kept by every operation; induction on the depth of the calls and on the program.
* C141: addresses as natural numbers, class layout by the rule of the ABIs; divisibility and linear arithmetic. For PrivateImpl an equivalence: accepted iff it fits at every address.
* C142-C143: types as trees, values of a type by recursion on it; viable constructors ranked by the rules of overload resolution; exact selection theorems, induction on the nesting.
* C144: handlers as parameters, conversions ranked as the language does; exact characterisation of the selected handler (`select_iff`), then each case.
* C145: a translation unit is a history of definitions and uses with memoised instances; induction on it.
* C146: the functions with `bit + 1` in 64 bits; equal to those on natural numbers (C01, C97) except at npos, which is treated apart.
* C147: the operations of C97 with an allocator that is asked only beyond the capacity; invariant: blocks at most capacity; induction over the list of operations.
* C148: invariant of the loop: if the trace of this emission contains a `Clear` of the signal, its iterator is at or beyond the end; kept by every action but an emission of the signal.
* C149-C150: memory of variables and parameters with a log of copies, moves and calls; induction over the slots with arbitrary bodies.
* C151-C152: sets of overloads ranked by the rules of overload resolution, exact outcome of the constructor; for C152 refinement to a map from variables to callables, with chains over frozen variables as invariant.
* C153: candidates ranked by the rules of overload resolution, exact characterisation of the selected one, contents by C25.
* C154: candidates ranked by the rules of overload resolution; the bitsets made by C05, C06 and C01.
* C155: exact outcome of each expression for all pairs of types, values by C46.
* C156: induction over expressions (`Tree`) and programs: the value is an enumerator or flags that show the set; values by C44; exact outcome of the other expressions.
* C157: induction over the declaration: the enumerators of a plain list with their values; then the size of the arrays and the greatest flag.
* C158: the effect of each statement on both variables, by the function that overload resolution selects; induction over programs.
* C159: storage with states of slots (raw, under construction, alive, under destruction) and a log; induction over the nesting of constructors, and over the number of elements for destructors.
* C160: each call is a load and a store of a cell (element or block); invariant over schedules: a loaded cell is unchanged and each cell has the value that the thread that uses it has made.
* C161: each call is a list of loads and stores; an access depends on its location only, so threads whose stores avoid the locations of the others run as if alone (invariant over schedules); the code of a call alone is shown to do what the model of the pool does.
* C162: the difference of the two registers evolves linearly, so the CRCs are equal exactly if the shift register returns to its start after as many steps as the bits are apart; its order is shown to be 2^32 - 1 by repeated squaring in the field and the prime factors 3, 5, 17, 257 and 65537.
* C163: HashCombine depends on seed and hash through their exclusive or, so one collision of the inner function of 64 bits (found by a search, checked in the kernel) gives a pair of seeds for every hash; every seed is reached by a bijection (C50).
* C164: the register after 32 more bits is a bijective linear function of the register before plus these bits; the specification `littleEndian`, `changed` in Hash/Spec.lean.
* C165: the difference of two hashes as a polynomial in the prime with small coefficients; no such polynomial vanishes modulo 2^32 (2^64), shown with the dual of a reduced basis of the lattice (numbers found outside, checked by `linear_combination` and `linarith`); for longer pieces a short vector of the lattice, realised by bytes that depend on the low byte of the hash only.
* C166: by linearity a change goes undetected iff the sum of three powers of x vanishes modulo the polynomial, that is iff P ^ s(i) = s(j) for two states of the shift register started at P; `Hash/ThreeBits.lean` computes, in the kernel, the first 91638 states, sorts them with their sums with P by their bits and shows that no two meet (a terminating, complete search proved correct, not a sample).
* C167: [dcl.init.aggr] and [dcl.init.list] as functions from types and lists of clauses to objects; induction over the clauses; refuted for lists in braces without the outer two pairs.
* C168: zero bytes move the register of CRC32 along its cycle, which contains all registers but zero (counting; the period is that of C162); they multiply the FNV-1a hash with powers of the prime, whose order modulo 2^32 (2^64) is computed by squaring and carried over to smaller powers of two.
* C169: a lemma on the initialisation of a list of parameters (what is new, what is moved from, what stays), used for the emission, for `std::function` and for the function; invariant over the slots: the parameters of the emission keep their values.
* C170: the lemma of C169 twice, for the parameters of the stored callback and for those of the function.
* C171: the entries as a partial function from names to keys and values; refinement over all histories; the choice of `find` is a parameter.
* C65-C66: as C32-C37; the constructor of an element may throw; refuted for Allocate and for move assignment.
* C59-C61: direct consequences of the Bitset model (iterator positions, moved-from value, number of blocks).

## 5. Disagreements between code and properties

Each entry is a `…_violated` theorem about the model of the code as it is.

| property | behaviour of the code | theorem |
|---|---|---|
| C06 | `Bitset(T)` with a negative value of a signed type narrower than the block sets bits past the size (Bitset.inl:119-138) | `C06_signed_violated` |
| C07 | `AppendBits` keeps bits of the value from `bitCount` on when they fit into the last block (Bitset.inl:161-168) | `C07_stray_bits_violated` |
| C07 | `AppendBits` shifts `1` by the block width if a new block is filled (Bitset.inl:184-188) | `C07_shift_ub_violated` |
| C08 | `Write` of a number of bits that ends inside a byte with further set bits | `C08_stray_bits_violated` |
| C08 | `Write` of 0 bits at a byte boundary reads and skips a byte (Bitset.inl:370-375) | `C08_zero_bits_violated` |
| C09 | `operator<` compares block by block without stopping at a greater block; first loop runs in the wrong direction (Bitset.inl:1529-1554) | `C09_two_blocks_violated`, `C09_block_counts_violated` |
| C59 | `BitIterator::operator++(int)` increments the copy (Bitset.inl:1433-1439) | `C59_postIncrement_violated` |
| C60 | defaulted moves leave `m_bitCount` (Bitset.hpp:41,107) | `C60_moved_from_violated` |
| C13 | run-time builtins on negative values of narrow signed types | `C13_countBits_signed_violated`, `C13_findLastBit_signed_violated` |
| C17 | `IntegralLog2` of a 64-bit value whose high word is 1 | `C17_integralLog2_violated` |
| C18 | `IntegralPow` on 16-bit unsigned: product of promoted `int`s overflows | `C18_integralPow_violated` |
| C19 | `GetNearestPowerOfTwo` diverges above the greatest power of two | `C19_getNearestPowerOfTwo_violated` |
| C20 | `Align` overflows/rounds toward zero | `C20_align_violated`, `C20_align_signed_violated`, `C20_align_overflow_violated` |
| C21 | `Approach` overflows | `C21_approach_violated`, `C21_approach_signed_violated` |
| C22 | `NumberEquals` on narrow signed types | `C22_numberEquals_signed_violated` |
| C24 | `ArithmeticRightShift` with logical-shift compilers and unsigned shift types | `C24_arithmeticRightShift_violated` |
| C27 | copy/move assignment from a vector that uses its fallback to one that does not overwrites `m_size` without destroying the inline elements (FixedVector.inl:691-732) | `C27_leak_violated` |
| C27 | self-assignment of an inline vector clears it (FixedVector.inl:704-707, 726-729) | `C27_self_violated` |
| C28 | `m_size` is incremented before the constructor is called (FixedVector.inl:385-387, 401, 519, 533) | `C28_inline_violated` |
| C28 | elements constructed by an interrupted `resize` are not counted and never destroyed | `C28_resize_leak_violated` |
| C62 | `push_back(v[i])`, `emplace(p, v[i])`, `resize(n, v[i])` on growth to the fallback read a destroyed element | `C62_growth_violated` |
| C62 | `emplace(p, v[i])` with `i >= p` reads the destroyed or shifted element | `C62_emplace_violated` |
| C30 | the defaulted move constructor of `StackVector` leaves `m_size` with a null pointer, the destructor then destroys elements 1, 2, ... of a null pointer (StackVector.hpp:43) | `C30_moveConstruct_violated` |
| C30 | the defaulted move assignment swaps the pointers but copies size and capacity (StackVector.hpp:107, MovablePtr.inl:54-59) | `C30_moveAssign_violated` |
| C63 | the same for `StackArray` (StackArray.hpp:46,92) | `C63_moves_violated` |
| C64 | `m_size` is incremented before the constructor is called (StackVector.inl) | `C64_vector_violated` |
| C64 | an exception in the constructor of `StackArray` leaks the elements before (StackArray.inl:25-32) | `C64_array_violated` |
| C35 | `RetrieveEntryIndex` divides by `sizeof(T)`, entries are `sizeof(AlignedStorage)` apart (MemoryPool.inl:284-299) | `C35_alignment_violated` |
| C36 | `freeEntries.Reset(true)` is `Reset(std::size_t bit)` with bit 1, out of range for blocks of one entry (MemoryPool.inl:232) | `C36_block_of_one_violated` |
| C37 | for the same reason `Reset` leaves the entries in use marked as occupied, later allocations fail an assertion (MemoryPool.inl:232-233) | `C37_reuse_violated` |
| C65 | `Allocate` marks the entry before it calls the constructor and does not undo it (MemoryPool.inl:91-99) | `C65_throw_violated` |
| C66 | the defaulted move assignment releases the blocks of the target without destroying its objects (MemoryPool.hpp:66) | `C66_moveAssign_violated` |
| C42 | a callback that disconnects its slot and connects another one ends the emission: `Disconnect` decrements the iterator 0 to the largest value, `Connect` takes that for the end (Signal.inl:92-95, 256) | `C42_skips_violated` |
| C42 | slots connected during an emission are appended to the list in iteration (Signal.inl:181-182) | `C42_called_now_violated`, `C42_diverges_violated` |
| C43 | the source of a move keeps null slot pointers in its inline storage (FixedVector.inl:726-729, Signal.inl:203-214) | `C43_source_violated` |
| C43 | the inline slot of the target is neither destroyed nor reachable (FixedVector.inl:718-723) | `C43_target_violated` |
| C43 | a target that uses its fallback gets a copy of the inline slot of the source (FixedVector.inl:529, 729): both signals call it, `Disconnect` removes it from the target only | `C43_copied_violated` |
| C43 | self-move clears the slots (FixedVector.inl:726) | `C43_self_violated` |
| C67 | nested emissions share `m_slotIterator` (Signal.inl:181-182) | `C67_recursive_violated` |
| C44 | `GetFlagValue` shifts the `unsigned int` 1, undefined for enumerators from 32 (Flags.inl:284-285) | `C44_large_violated` |
| C44 | `ValueMask` shifts by 64 if the maximum is 63 (Flags.hpp:97) | `C44_mask_violated` |
| C44 | without AutoFlag `MaxValue` is a flag value, not a bit number, so `~` sets bits that are no enumerators (Flags.hpp:56, 97) | `C44_complement_violated` |
| C45 | without AutoFlag `operator*` shifts the `unsigned int` 1 (Flags.inl:334-335) | `C45_large_violated` |
| C46 | `index * m_stride` converts a negative stride to the unsigned index type (SparsePtr.inl:254, 270, 286, 314, 324) | `C46_unsigned_violated`, `C46_size_t_violated` |
| C46 | the byte offset is computed in `int` or `unsigned int` for narrow index types | `C46_int_overflow_violated`, `C46_unsigned_overflow_violated` |
| C68 | comparisons look at addresses only, so they are reversed for negative strides (SparsePtr.inl:423-466) | `C68_order_violated` |
| C69 | the pointer is cast through `void*` (SparsePtr.inl:168) | `C69_convert_violated` |
| C49 | FNV1a32/FNV1a64 of strings convert `char` to `UInt32`/`UInt64`, which extends the sign where `char` is signed, the overload for `UInt8` does not (Hash.inl:145-230) | `C49_fnv_violated` |
| C51 | `Map` is `noexcept` if the function is, but copies the error and moves the mapped value (Result.inl:182, 203, 362, 383) | `C51_map_terminate_violated` |
| C51 | an assignment that throws leaves the `std::variant` without value: neither `IsOk` nor `IsErr` (Result.hpp:107-108, Result.inl:125-135) | `C51_valueless_violated` |
| C71 | `Result<void, E>(ResultError<T>)` uses `std::move` instead of `std::forward<T>` (Result.inl:281) | `C71_lvalue_violated` |
| C53 | the defaulted move assignment keeps the functor in the source and drops that of the target (CallOnExit.hpp:29) | `C53_move_violated` |
| C53 | `CallAndReset` resets after the call, so a functor that throws is called again (CallOnExit.inl:38-45) | `C53_throw_violated` |
| C54 | copy construction and copy assignment from an empty PrivateImpl dereference null (PrivateImpl.inl:134, 230-239) | `C54_copy_empty_violated` |
| C54 | self-assignment deletes the object before it copies it if `T` is not copy assignable (PrivateImpl.inl:237-238) | `C54_self_assign_violated` |
| C54 | the same place: if the copy throws, the pointer to the deleted object stays (PrivateImpl.inl:237-238) | `C54_copy_throw_violated` |
| C54 | inline storage: copy and move assignment destroy first, also for self-assignment (PrivateImpl.inl:91-107) | `C54_inline_self_violated`, `C54_inline_throw_violated` |
| C72 | `MovableValue::operator=(U&&)` uses `std::move` instead of `std::forward` (MovableValue.inl:131-137) | `C72_lvalue_violated` |
| C72 | `a = b` for a non-const `MovableValue<T> b` takes the template `operator=(U&&)`, which moves from `b` if `T` has `operator=(T)` and does not compile (ambiguous) if `T` has both `operator=(const T&)` and `operator=(T&&)`, as `std::string` has | `C72_wrapper_violated`, `C72_wrapper_compiles` |
| C73 | a FunctionRef keeps the address of its argument, also if that is a temporary function pointer (FunctionRef.inl:22) | `C73_temporary_violated` |
| C73 | the null constructor leaves `m_callback` uninitialised, copies read it (FunctionRef.inl:12-16, FunctionRef.hpp:26-34) | `C73_null_violated` |
| C55 | `TypeListApply` forwards an rvalue argument to the functor of every type (TypeList.inl:19-29) | `C55_apply_violated` |
| C56 | an enumerator below 0 is converted to a huge index (EnumArray.inl:25, 31) | `C56_negative_violated` |
| C57 | signed values from 2^w on are not reported for unsigned types of w bits (Algorithm.inl:216-225) | `C57_narrow_violated` |
| C57 | for lvalues `From` is a reference type, none of the checks applies (Algorithm.inl:52, 230) | `C57_lvalue_violated` |
| C57 | conversions to bool of values from 2 on | `C57_bool_violated` |
| C58 | the search for the end of the name stops at the position of its beginning (TypeName.inl:24) | `C58_gcc_violated`, `C58_clang_violated`, `C58_msvc_violated` |
| C74 | the maximum of the type is rounded up when it is converted to the floating-point type (Algorithm.inl:208-213) | `C74_edge_violated` |
| C74 | values are converted to `long long` before they are checked (Algorithm.inl:208-213) | `C74_large_violated` |
| C75 | `is_base_of_v` is applied to pointer and reference types, so the check is never made (Algorithm.inl:252, 266) | `C75_downcast_violated` |
| C78 | equal infinities: their difference is NaN (MathUtils.inl, NumberEquals) | `C78_infinity_violated` |
| C79 | Clamp of a NaN is the NaN | `C79_clamp_nan_violated` |
| C79 | Approach with an increment below half a unit in the last place never arrives | `C79_approach_stuck_violated` |
| C80 | `from + interpolation * (to - from)`: overflow gives NaN at 0, rounding misses or passes `to` at 1 | `C80_lerp_zero_violated`, `C80_lerp_one_violated`, `C80_lerp_overshoot_violated` |
| C80 | unsigned integers with `to < from`: the difference wraps | `C80_lerp_unsigned_violated` |
| C81 | Mod in constant expressions differs from `std::fmod`: rounded quotient, infinite divisor, quotient beyond `long long` | `C81_mod_const_violated`, `C81_mod_infinite_violated`, `C81_mod_overflow_violated` |
| C82 | fused or not depends on `FP_FAST_FMA` | `C82_multiplyAdd_violated` |
| C83 | constants of `long double` come from literals of type `double` | `C83_longDouble_violated` |
| C84 | `MinValue` of floating-point types is `numeric_limits::min()`, a positive number | `C84_min_violated` |
| C86 | the enabled macro is an `if` without `else`, so an `else` after it belongs to the assertion (Assert.hpp:14-15) | `C86_else_violated` |
| C88 | only the range is checked, values are rounded without report (Algorithm.inl:239-240) | `C88_precision_violated` |
| C88 | for lvalues `From` is a reference type, none of the checks applies | `C88_lvalue_violated` |
| C88 | integers are not checked (Algorithm.inl:234) | `C88_integer_violated` |
| C91 | `StaticUniquePointerCast` relies on the check of `SafeCast` that is never made | `C91_wrong_class_violated` |
| C91 | a base without virtual destructor is accepted (Algorithm.inl:287-291) | `C91_nonvirtual_violated` |
| C92 | `FixedBitset` has `(Capacity + 7) / 8` blocks instead of bytes (Bitset.hpp:147): sizes up to `w/8` times the capacity are accepted | `C92_limit_violated` |
| C92 | self-assignment of a `FixedBitset` keeps the size and drops the blocks | `C92_self_violated` |
| C93 | `FunctionTraits<Ret(Args...) noexcept>` is missing (FunctionTraits.hpp:22-40), as are qualified function types, C variadic ones and `volatile` pointers: they use the primary template and do not compile | `C93_noexcept_violated`, `C93_qualified_violated`, `C93_variadic_violated` |
| C94 | function pointers and references do not satisfy `Functor` (FunctionTraits.hpp:137-147), function types without traits do | `C94_pointer_violated`, `C94_reference_violated`, `C94_function_violated` |
| C95 | `Overload` is ambiguous between a function and its `const` (or `&`, `&&`) version; there is no call operator for `volatile` functions (FunctionTraits.hpp:159-241) | `C95_const_overloads_violated`, `C95_volatile_violated` |
| C97 | `AppendBits` changes `m_bitCount` before `push_back` (Bitset.inl:159, 175, 189): after `std::bad_alloc` the size exceeds the blocks and `Test` of the last bit is undefined; `Write` likewise | `C97_append_violated`, `C97_write_violated` |
| C98 | `AllocateBlock` leaves the new block in the vector when one of its later allocations throws (MemoryPool.inl:355-358): `GetFreeEntryCount` counts its entries, and once the others are in use `Allocate` asserts or returns an entry of a null storage | `C98_next_violated`, `C98_residue_violated` |
| C99 | `push_back(T&&)` passes its argument to the fallback as an lvalue (FixedVector.inl:529): the element is copied (and move-only types do not compile with a fallback), also by move assignment to a vector that uses its fallback | `C99_copies_violated`, `C99_assign_violated` |
| C100 | `push_back` is `noexcept` whenever the element type is nothrow copy (move) constructible (FixedVector.inl:511, 524), although it may allocate: a refused allocation ends the program instead of throwing | `C100_push_back_violated` |
| C100 | copy assignment from a vector in its inline storage to one that uses its fallback clears the target first and `reserve` (622-639) ignores the request: a refused allocation loses the elements, leaving a part of the source (or ends the program) | `C100_copy_assign_violated` |
| C100 | `operator=(FixedVector&&) noexcept` (713) from a vector in its inline storage to one that uses its fallback drops the buffer of the target and allocates again: the program ends if this is refused | `C100_move_assign_violated` |
| C101 | `reserve(n)` returns at once if `n` is at most the inline capacity (627), also when the fallback is in use and its capacity is smaller (after a copy or a move): later appends within `n` allocate, may throw and invalidate references | `C101_reserve_violated` |
| C103 | the macros paste their size argument two (Windows, no `alloca`) or three times (GCC/Clang): with `i++`, the capacity may be larger than the buffer | `C103_evaluated_violated`, `C103_side_effects_violated` |
| C103 | `(capacity) * sizeof(T)` wraps around without a check; a negative number converts to a huge capacity | `C103_overflow_violated` |
| C103 | without `alloca`, `NazaraStackArray` names `Nz::OperatorNew`, which does not exist (StackArray.hpp:17-18): does not compile | (not expressible) |
| C104 | a stack vector can be moved and returned, but its memory does not outlive the function that made it | `C104_returned_violated` |
| C104 | `alloca` in a loop keeps the memory of each iteration until the function returns | `C104_loop_violated` |
| C105 | `CallAndReset` and the destructor call the functor while the guard still has it (CallOnExit.inl:29-30, 41-44): a functor that calls `CallAndReset` of its own guard, directly or in a cycle, recurses for ever | `C105_cycle_violated` |
| C105 | a functor that calls `Reset` of its own guard destroys itself while it runs | `C105_reset_self_violated` |
| C106 | `Ok` and `Err` return a reference to their argument (Result.inl:18-21, 27-30): `auto h = Nz::Ok(std::string("x")); return h;` reads an object that has ended | `C106_dangling_violated` |
| C106 | the same object shows changes of its argument, and moves from it at each conversion | `C106_changed_violated`, `C106_twice_violated` |
| C107 | self-assignment of a `HybridBitset` whose blocks are inline clears the blocks and keeps the size (FixedVector.inl:704-707) | `C107_self_violated` |
| C110 | `operator()` does not keep the slot alive while its callback runs (Signal.inl:181-182): a callback that disconnects its own connection or clears the signal, and then uses what it captured, uses a destroyed object | `C110_self_disconnect_violated`, `C110_self_clear_violated` |
| C112 | a value cast to a type with padding and back is lost; not every byte is a `bool` | `C112_padding_violated`, `C112_bool_violated` |
| C113 | `NazaraOffsetOf` names a member of an object at the null pointer (OffsetOf.hpp:21), undefined by the standard and not a constant expression | (not expressible) |
| C114 | `Retrieve(const M&, ...)` accepts a temporary map: the reference dangles | `C114_temporary_violated` |
| C115 | `emplace` moves the last element to raw storage before `m_size` counts it (FixedVector.inl:378-385): an exception of a later move leaks it | `C115_emplace_violated` |
| C115 | `MoveStorageToFallback` destroys each element as it goes and sets `m_size` last: an exception leaves destroyed elements counted | `C115_grow_violated` |
| C115 | move constructor and move assignment are `noexcept` (225, 713) for every element type | `C115_noexcept_violated` |
| C116 | the copy constructor does not delegate, so that the elements copied before an exception are leaked (210-222); `FixedVector(size, value)` leaks through `resize` | `C116_leak_violated` |
| C116 | `FixedVector(first, last)` delegates, and the destructor destroys the element whose constructor threw, as `m_size` is increased first (196-202, 399) | `C116_range_violated` |
| C116 | copy assignment: the same at the end of the life of the target | `C116_assign_violated` |
| C118, C135 | `Clear` and `~Signal` destroy callbacks while the vector of slots is being cleared: a callback that owns a guard of another slot of the signal calls `Disconnect` on it | `C118_clear_violated`, `C135_clear_violated` |
| C119 | `ConnectionGuard::Connect` disconnects before it connects (Signal.inl:391-392) | `C119_guard_violated` |
| C119 | `Signal::operator=(Signal&&)` is `noexcept` but may allocate | `C119_move_violated` |
| C120 | `Clear` in the body of a loop over the pool: `++it` on a block that does not exist | `C120_clear_violated` |
| C121 | `Reset` keeps the bits of the entries it has destroyed until the end of the block (and after, see C37): the destructor of a later object that owns such an entry destroys it again | `C121_destroy_violated` |
| C122 | `emplace(pos, v[i])` of a `StackVector` with `i` at or after `pos` | `C122_emplace_violated` |
| C123 | a later move of `StackVector::emplace` throws: the copy of the last element is leaked | `C123_emplace_violated` |
| C127 | `operator()` uses the members of the signal after each callback (Signal.inl:181-182): a callback that destroys the signal makes this undefined, one that moves the signal ends the emission | `C127_destroy_violated`, `C127_move_violated` |

* C131: `char buf[] = "abc"; CRC32(buf)` is not `CRC32("abc")`: for arrays of `char` that are not const the template for `const char(&)[N]` is the better overload, and it hashes the null (and all that follows it in the array), Hash.inl:131-135, 183-187, 235-239. For literals, for which it seems to be meant, it is never selected: the overload for `const char*` is as good and no template, so that a literal with an embedded null is hashed up to that null.
* C50: with a `std::size_t` of 32 bits `HashCombine` is not injective (`C50_size32_violated`).
* C132: `operator()` of a signal is const but writes to the mutable `m_slotIterator` (Signal.hpp:76, Signal.inl:181): two threads must not emit a signal at the same time, though constant operations suggest otherwise.
* C134: a body of a loop over `IterBits()` that shortens the bitset to the current index or less makes `++it` fail the assertion of `FindNext` (Bitset.inl:262).
* C136: `std::hash<Flags<E>>::operator()` is not const (Flags.inl:454), so it is no hash functor in the sense of the standard library.
* C137: `CountBits` of a negative `int` or `long long` is not a constant expression (MathUtils.inl:358 subtracts from the least value); `IsPow2` and `RoundToPow2` overflow on the least value; `AlignPow2(INT_MAX - 7, 8)` overflows although the offset is aligned; `GetNearestPowerOfTwo` does not end (C++20) or shifts a negative value (C++17) above the greatest power of two.
* C138: `PrivateImpl<T> p(new Derived)` does not adopt the object but calls `T(Derived*)` (does not compile, or leaks if `T` can be made from a pointer or bool); a class derived from `PrivateImpl<T>` cannot pass its own type on in its copy constructor.
* C139: `AppendBits(std::int8_t(-1), 8)` on an empty bitset of 32-bit blocks leaves the block 0xFFFFFFFF and 8 bits: `Count()` is 32 (Bitset.inl:189 converts the masked value with its sign; the same happens at line 164).
* C141: MemoryPool has no static assertion on `Alignment`, so `MemoryPool<T, A>` with `A < alignof(T)` places objects at addresses that do not suit them. `NazaraStackArray` and `NazaraStackVector` do not regard `alignof(T)`, so over-aligned types are misplaced.
* C142: `Result<Result<T, E>, E>` made from an rvalue or const lvalue `Result<T, E>` is converted, not wrapped: its error becomes the outer error (Result.hpp:67, 72-73).  Conversions between Results also need a default constructor of the value type, which is not part of their conditions (Result.inl:70-88).
* C143: `Result<void, E>(ErrorTag{})` is a success, and so is `Result<void, E>(Err(std::nullopt))` (Result.inl:278-295: `m_error` is a `std::optional` that gets the arguments).
* C144: a `const T&` handler beside an `auto&&` handler is not called for variants that are not const lvalues (TypeTraits.hpp:112-118).
* C145: `IsComplete_v<T>` used before the definition of `T` stays false after it (TypeTraits.hpp:77-97).
* C146: `UnboundedReset(i)` and `UnboundedSet(i, false)` beyond the size do not enlarge the bitset, against Bitset.inl:891 and 907; `UnboundedSet(npos)` clears the bitset and then fails an assertion (Bitset.inl:919).
* C139: `AppendBits(std::int8_t(-3), 32)` appends ones up to the end of the block and then zeros, against Bitset.inl:147-148 (24 zeros); with types wider than a block ones without end.
* C149: signals with a parameter `T&&` or with a by-value parameter of a move-only type cannot be emitted, although functions can be connected to them: `callback(args...)` in Signal.inl:182 passes lvalues.
* C151: `FunctionRef(F&&)` is selected for const callables and for callables that can only be called as rvalues, and does not compile for them (FunctionRef.hpp:25, FunctionRef.inl:22-25).\n* C152: a FunctionRef made from a FunctionRef of another signature refers to that variable, not to the callable (FunctionRef.hpp:25).
* C153: `FixedVector(n, x)` with two arguments of the same type, e.g. `FixedVector<int, 4>(3, 5)`, selects the constructor from a range and does not compile (FixedVector.hpp:49).
* C154: `Bitset(T)` (Bitset.hpp:40) takes part for every type and is preferred to conversions: `char*` and `char` arrays do not compile, floating point numbers are truncated; `Bitset(0, v)` is ambiguous for integers `v` (Bitset.hpp:34, 36).
* C155: `SparsePtr<T> - SparsePtr<U>` selects the template for integers and does not compile (SparsePtr.hpp:54); comparisons with the more general type on the right do not compile (29, 66-71); strides of type `unsigned int`, `long` are ambiguous (27-28).
* C156: `Flags(BitField)` is implicit (Flags.hpp:68), so numbers of any type and enumerators of other unscoped enumerations are taken as flags; `e | 4` with an unscoped enumerator is built-in arithmetic on its value; the operators of `FlagsOperators` are found at global scope and in `Nz` only (135-147), so that another operator in the namespace of the user hides them (with an unscoped enumeration the program still compiles and computes another set).
* C157: `EnumValueCount` (TypeTraits.hpp:40-55) is ambiguous for an enumeration with both `Count` and `Max`; it counts nothing, so that enumerators after `Count`, aliases before it, gaps and a `Max` that is not an alias give arrays that do not fit the enumerators.
* C158: a wrapper moved into one of another type is read through its conversion operator (MovablePtr.inl:15-19, 46-52; MovableValue.inl:15-20, 65-71), which does not reset it: after `MovablePtr<Base> b(std::move(d))` both hold the pointer.
* C159: `clear` (FixedVector.inl:295-298, StackVector.inl:263-266) sets the size after the loop and `pop_back` (FixedVector.inl:548-549) before the destructor runs, so a destructor sees destroyed elements in the first case and its own storage as free in the second.
* C160: `Set` and `Flip` read and write the whole block (Bitset.inl:635-640, 1251), so threads that write different bits of a block lose updates.
* C80: `from + (to - from)` may round past the greatest number: in every format `Lerp(a, max, 1)` is infinite for `a` = 3/2 of the last digit of `max`.
* C161: `Free` and `Allocate` change the counter of the block and whole words of flags without synchronisation (MemoryPool.inl:72-75, 133-139), so threads that free different entries of a block lose updates, and threads that allocate may get one entry.
* C162: for messages of 512 MiB and more CRC32 misses some changes of two bits. This is a limit of CRC-32 itself and not a fault of the code.
* C167: `EnumArray<E, V> x { { ... }, { ... } }` is refused for every aggregate `V` (EnumArray.hpp:19: an aggregate whose base is an aggregate), and a single list in braces can be spread over several enumerators without a word from the compiler.
* C166: from 11455 bytes on CRC32 misses some changes of three bits, again a limit of CRC-32 itself.
* C168: zero bytes after a part with the CRC32 0xFFFFFFFF or with the FNV-1a hash zero are not seen. Limits of these functions themselves and no fault of the code.
* C169: `signal(std::move(x), x)` with parameters by value (Signal.inl:178) depends on the order in which the compiler initialises parameters, as any call does.
* C170: a parameter by value in the signature of a FunctionRef is moved from the argument also if the function takes `T&&` and does not move (FunctionRef.inl:24, 32); with the same variable given a second time the function sees a moved-from value.
* C171: with several entries of a key, `Retrieve` of the same key may give another entry after an insertion (Algorithm.inl:173: `find`, where the standard leaves open which).

Not expressible: `operator+` and `operator-` of the key-value iterators of EnumArray (EnumArray.inl:98-108) pass a pointer to a constructor
that takes a tag, so every use of them is rejected by the compiler.
