# Formal model of msharov/ustl in Lean 4

## Approach

The C++ sources in /repo are read as text and modelled function by function as
total, computable Lean functions. The modules live in `lean/Verif/<Area>/`:

* `Model.lean`  - the code that exists. Each definition cites file and lines.
* `Spec.lean`   - the small, independent vocabulary used in property statements
                  (only where core/Mathlib notions such as `List.Perm`,
                  `List.Pairwise`, `List.count` do not suffice).
* `Lemmas.lean` - helper lemmas, never cited by MANIFEST.json.
* `Props.lean`  - the property theorems, each followed by an `example`
                  showing that a concrete non-trivial case meets the hypotheses.

Conventions

* A C++ range `[first,last)` over random access memory is a `List α`; a position
  is a `Nat` index. Memory reads and writes go through `rd`/`wr`, which return
  `none` outside the block. `none` therefore stands for *undefined behaviour*, and
  a theorem of the form `f l ... = some r` includes memory safety.
* Read-only forward traversals (`for (; first != last; ++first)`) are structural
  recursion on the list; an output iterator is the list of values written.
* A loop becomes structural recursion, well-founded recursion, or recursion on a
  measure shown sufficient. A non-terminating loop is modelled as a step relation or by fuel, and
  non-termination is proved for every fuel.
* Integers are `Nat`/`Int` unless the property is about wrap-around; then `BitVec`/
  `% 2^w` is used.
* When the code violates its property, the negation is proved on a concrete witness
  (theorem named `..._violated`) and the strongest true form is named `..._partial`.

## Trusted base

* Lean 4.33.0's kernel. Axioms: at most `propext`, `Classical.choice`, `Quot.sound`
  (checked by vcheck); no axioms of our own, no compiled decision procedures.
* The reading of /repo into the model (no code was run). Compiler, libc
  (`memcpy`, `memmove`, `qsort`, `malloc`, `strlen`, system calls) are modelled by their
  contracts where mentioned.
* External behaviour (allocation success, OS short transfers, random numbers, thread schedule)
  is a universally quantified parameter.

## What is modelled, by module

| module (lean/Verif/) | sources | what stands for what |
|---|---|---|
| Search, Forward, Permute, SetOps, Heap | ualgo.h, upredalgo.h, uheap.h, unumeric.h, uctralgo.h | ranges are lists with checked `rd`/`wr`; comparison objects are Boolean functions, strict weak orders where needed; the random source is a parameter |
| Bytes | ualgobase.h, ualgobase.cc | flat byte memory; MMX/SSE/`rep movs` paths as byte moves; alignment of both addresses is a parameter |
| Memblock | memlink.h/.cc, cmemlink.h/.cc, memblock.h/.cc | blocks of a heap with a ledger; `realloc` may fail or move at every call; sizes of 32 bits |
| VecLink | uvector.h:95-104 on memblock.cc | vectors that are views of foreign memory or of each other; plain elements over Memblock, elements with destructors over Vector |
| Vector, Str, StrFind | uvector.h, ustring.h/.cc | cells are raw or live; any number of objects, histories of operations, allocation failure anywhere; `strtol`/`strtoul` by the C standard (Str/NumModel); where C++ overload resolution falls back to comparing pointers, the addresses are the arguments (StrFind/PtrCmp) |
| Utf8 | utf8.h | bytes of 8 bits, values of 32 bits |
| Assoc, Seq, Bitset, Iter | uset.h, umultiset.h, umap.h, umultimap.h, uqueue.h, ustack.h, ulist.h, ubitset.h/.cc, uiterator.h | containers over lists (the vector underneath is the one Vector justifies) |
| Stream | mistream.h/.cc, mostream.h/.cc, ustream.h, uspecial.h (long4grain), utf8.h over streams, uctralgo.h, strmsize.h | memory block with base alignment, position, state and exception mask; a universe of serialisable types; `readsome`, and reads of strings and blocks whose stored length lies beyond the end (Stream/Bounded) |
| Text | sistream.h/.cc, sostream.h/.cc | several streams over one heap (Text/Copy.lean); elsewhere one stream; `vsnprintf` and `strtol` by the C standard (Text/Libc.lean); `%f` as exact rounding (Text/Float.lean) |
| File | fstream.h/.cc, ofstream.h/.cc, sistream.cc on files, mistream.cc stream into stream (`Pipe`), cmemlink.cc write_file, memblock.cc read_file | the stream object's lifetime (`inScope`: the destructor runs on return and on throw); the block with its capacity (`Blk`); the system is a script of answers (`did n`, `eintr`, `eagain`, `err`), universally quantified |
| Fds | fstream.h, fstream.cc:22-128, 169-188 | any number of objects over one table of descriptors; the system may choose any free descriptor; writes are complete, calls fail only for descriptors that are not open |
| Util, Chrono | uutility.h, uratio.h, uchrono.h | `Int`/`Nat` with explicit wrap-around |
| SmartPtr, Shared | umemory.h, uatomic.h | a ledger of objects; for shared_ptr an interleaving semantics of atomic steps, every schedule |
| Atomic | uatomic.h, uutility.h (TestAndSet) | one shared word of `b` bits; each member function is one GCC builtin, a step; client programs (compare-exchange loop, spin lock) as interleavings of `n` threads |
| Exn | uexception.h/.cc, ustdxept.h/.cc, bktrace.h/.cc | binary form over Stream; the demangler and what `backtrace_symbols` returns are parameters; `info`, `what` and the constructors with the part of `vsnprintf` they use; `strerror` is a parameter |
| Err | uerror.h | error codes, conditions and the errc table with the errno values of Linux |
| Cmp | uutility.h, upair.h, uarray.h, utuple.h, ustack.h, uqueue.h, uvector.h, umemory.h, mistream.h, uerror.h (comparison operators) | operators of the elements are Boolean functions; integer types by width and sign, with the usual conversions |
| Link | cmemlink.h/.cc, memlink.h/.cc | blocks of foreign memory, any number of links sharing it; a link is (block, offset, size) or null; `rotate` is a parameter (`RotateOK`, met by the model of uheap/ualgobase rotate) |
| Ctr | uctralgo.h, ufunction.h, `sort` (ualgo.h) | containers are lists, value arguments are references that may point into the container; comparison types are a call operator and a default value; `qsort` is a parameter with C's contract |
| Raw | umemory.h (raw storage, scope_exit), uvector.h (exceptions) | storage is a list of slots, empty or holding an object; pointers are w-bit addresses where the code converts them to integers; any constructor, assignment or allocation may be made to throw |
| Meta | typelist.h, typet.h, uttraits.h, traits.h | template specialisation as functions on a universe of types; `none` where the program does not compile |
| LinAlg | utuple.h, uarray.h, umatrix.h, ulaalgo.h, simd.h, ulimits.h | elements of any (semi)ring; the inline assembly as lists of instructions on lanes |

Not modelled: floating point (parsing, printing, rounding), `qsort` beyond its contract, locale, `unew.cc`, stack unwinding,
signal handling, `std::async`/threads other than shared_ptr's count, code that does not compile when instantiated
(noted at the property), big-endian machines, 32-bit `size_t`. Object sizes are below 2^64 everywhere; where the code
keeps sizes in 32 bits, so does the model (Memblock, Str, Vector) or the theorem carries the bound (Text).

Naming: `_spec` is the property, `_partial` a part of it (the docstring says what is missing), `_violated` proves that the code breaks the
property. A `_violated` theorem is a finding about the code as read, not a defect of the model.

## Plan per property

| id | modelled | proof |
|----|----------|-------|
| C01 C02 | lower_bound, upper_bound, equal_range, binary_search (both overloads) as index loops with checked reads | loop invariant; comparison overload of binary_search refuted |
| C03 C04 | uheap.h on indexable memory; priority_queue as state machine over op histories | heap-except-at-i invariants; permutation; histories by induction; custom comparator refuted |
| C05-C08 C14-C16 | ualgo.h/upredalgo.h index loops | invariants, `List.Perm`, stability as sublist of equivalents |
| C09 | two-list merges | count arithmetic by induction |
| C10 | next_permutation/prev_permutation index loops | lexicographic successor |
| C11-C13 C17 | forward traversals | induction; find_end, adjacent_difference refuted |
| C18-C21 | memblock state machine over a heap ledger with failing allocation | refinement to byte list; ledger invariant; overflow/over-read refuted |
| C22 C23 C24 | vector and string over memblock operations | refinement to lists, NUL invariant; insert(pos,string) refuted |
| C25-C27 C54 | string searches and comparison | first/last occurrence; rfind refuted |
| C28 C29 | utf8.h byte arithmetic | round trip for every value < 2^31; induction over sequences |
| C30-C36 | containers as state machines over sequence ops | refinement by induction over histories; queue copy refuted |
| C37 | bitset words | refinement to bit function; whole-set ops refuted, partial |
| C38-C41 | ostream/istream with pos/size, universe of serialisable types | round trip by induction on type; bounds invariant over op sequences with hostile bytes; read_strz refuted |
| C42 C43 | sostream/sistream | digit round trip; tokeniser |
| C44 | fstream loops against a scripted OS | induction on script |
| C45-C48 | integer utilities, ratio, hrtime_t | arithmetic |
| C49 C50 | smart pointers as transition systems | ledger invariant, every interleaving |
| C51 | matrices, tuples, arrays as lists of elements; SSE and 3DNow! programs interpreted; conversions, copies and operands that are one object | loop invariants against Mathlib's `Matrix`; tall identity, SSE product, unary packed operations refuted |
| C52 | iterator adaptors | algebra; move_iterator refuted |
| C53 | copy/fill primitives on flat memory | frame conditions |
| C55 | string::vformat against a text of any length | loop measure; empty text into an empty string refuted |
| C56 | insert iterators over the sequence model | induction over the copied sequence |
| C57 | ostringstream with buffer growth | history induction; initial text refuted |
| C58 | ofstream over the scripted system | history invariant file ++ buffer = text; failed flush refuted |
| C59 | ifstream, buffer refills at any point | simulation with the string stream; block reads and numbers refuted |
| C60 | descriptor life cycle | history invariant on closed descriptors; EINTR, exceptions, self-attach refuted |
| C61 | simd functors with C++ integer promotion | case analysis; negative operands refuted |
| C62 | exception classes and CBacktrace over the stream model | encoder/decoder combinators; hostile frame counts refuted |
| C63 | name extraction, symbol table, text, copying | first-occurrence lemmas, loop induction; four refutations |
| C64 | operators of the elements are Boolean functions; integer types with their conversions | case analysis; lexicographic induction; refutations by example |
| C65 | blocks of foreign memory; links are (block, offset, size); rotate is a parameter satisfying its specification | case analysis per operation, induction over histories |
| C66 | the stream, the system as a list of answers, the block with its capacity | outcome predicates composed over the functions; induction over the answers |
| C67 | the string with its memory and the allocator, strtol and strtoul from the C standard | characterisation of the scan in both directions by case analysis and induction over the text; vformat rounds |
| C68 | the builtins by their documentation; calls as steps; the loop and the lock as client programs of n threads | induction over histories and runs with invariants; a decreasing measure for lock-freedom |
| C69 | the iterator over the stream model; the copy loop as a relation, proved deterministic | induction over the values left in the stream |
| C70 | the disk (contents, offset, O_APPEND) around the stream model of C58 and C59 | simulation by a string stream (reading) and by a file written byte by byte (writing), induction over the history |
| C71 | each call as one answer of the system; flags as 32 bits | case analysis on the answer; bitwise reasoning for the flags |
| C72 | qsort as a parameter with C's contract; a comparison type as its call operator and its default value | from the contract, with the adapter shown consistent |
| C73 | containers as lists, iterators as positions, value arguments as references (into the container or not); replace_copy forms are C11's | loop invariants over kept part, gap and rest; the other forms from the range theorems |
| C74 | operators as Boolean functions, members as projections, pointers as addresses in a store | direct, and from the theorems on the algorithms |
| C75 | guards as action number, enabled flag, liveness; histories as lists of steps | invariant tying guards to an independently defined fate of every action |
| C76 | a region as a list of slots, empty or with an object; pointers as w-bit addresses in the loops that convert them to intptr_t; constructor calls that may throw | every loop shown equal to a plain iteration, then induction |
| C77 | a vector as its slots and its size; element operations and allocations that fail at chosen calls; storage moves keep slots; positions instead of addresses | each operation on the slot list, invariant over histories |
| C78 | durations as counts over a record of representation operations (intmax_t, hrtime_t); clock readings as what clock_gettime stores | each operation against exact rationals; floor arithmetic for the clocks; text by the number theorems of C42 |
| C79 | constructors, destructors, open and close of ofstream and ifstream over the C58-C60 file model, and underflow with cout beside it | composition of the C58 history theorem with invariants every write keeps; the destructor by cases on the descriptor |
| C80 | flags by name and by bit, the flag functions, every manipulator of text streams, over the C57 stream model | each manipulator bit by bit against a settings record indexed by flag names; induction over the sequence |
| C81 | a universe of text-writable types and the text writers of pair, container, matrix, bytes and bitset over the C57 stream | induction over types and lists; injectivity by showing that each text can be told from what follows it |
| C82 | the table of ulimits.h for the integer types of x86-64 and pointers; values are bit vectors | case analysis over the types, for all bit vectors of each |
| C83 | the output iterators and the UTF-8 iterators over the C40/C41 stream, the copy loop as an inductive relation of stores and steps | combinators for sequential writes; induction over the characters left, one outcome only (utf8in_unique) |
| C84 | the two little-endian builds over the C40/C41 stream | the byte form split into halves; write and read combinators, induction over the sequence |
| C85 | bytes of memory, registers of 64 or 128 bits, the inline assembly line by line, and the generic loops | registers split into parts bit by bit, for every width; induction over the loop; memories equal if their elements and other bytes are |
| C86 | memblocks in a heap with foreign memory, elements of sz bytes, sixteen operations over any number of vectors; for elements with destructors the raw/live cells of the vector model | a refinement invariant (ownership of memblock plus the element list of every vector) through every operation; destruction of a raw cell for the refutations |
| C87 | the vector calls the four containers do not hide, on the element lists of the Assoc model | preservation of the representation by every inherited call, together with the existing steps; ranks counted by lists without repetition |
| C88 | templates as functions on a type universe; the most specialised matching partial specialisation | induction on the list |
| C89 | a universe of canonical C++ types; each trait as its list of specialisations (the g++ branch) | case analysis and induction on types |
| C90 | traits.h as functions on the universe of C89, instantiated as a whole | normal forms of the qualifier-removing templates, then case analysis |
| C91 | constructors, what, name, info and the conversions of vsnprintf the formats use, over the string model of C55 and the heap model | printf of literal pieces by induction, each class by evaluation |
| C92 | the enumeration with the errno values of Linux; codes and conditions as their number | case analysis over the enumerators; induction on the history |
| C93 | the instruction sequences on bytes of memory and registers, with the scalar float functions as parameters; the loops of builds without SSE | lanes of registers; induction on the loops |
| C94 | the exchange as one step; the portable branch as a read and a write that other threads can come between | induction on histories; a schedule for every number of threads |
| C95 | the table of overloads over the byte-level primitives of C53 | case analysis on the type; induction on the generic loops |
| C96 | assignSub, appendSub, insertSub, replaceSub and insertOwn (byte by byte) of Verif.Str with source and destination the same string | explicit block contents before and after, list lemmas |
| C97 | istringstream settings (sistream.h:29-32, 86-92), readBase and strtol of Verif.Text | bitwise testBit lemmas, induction on the calls, strtol_core |
| C98 | minC, maxC with the usual arithmetic conversions (uutility.h:48-55), minmaxL, minmaxLC (ualgo.h:651-672) | case analysis on the types with omega, fold invariants |
| C99 | fmtStringF, writeFloat (sostream.cc:65-103, sostream.h:94-117); %f of the C library as exact rounding of a fraction | digit lemmas, parsing of the format string, vformat_ok |
| C100 | isWrite, osWrite, osRead, ofOS, isText, osText, ifsText (mistream.cc:26-45, 100-110, mostream.h:75) | write_ok, the failing write, induction over the streams |
| C101 | assignOwn, resizeOwn, insertOwn, pushBackRef (uvector.h:164-175, 231-300, 320-324, umemory.h:385-404) | blocks as rows of slots; one lemma about the copying loop that may read its own output; the freed block after a moving realloc |
| C102 | the base (place, size, position) and the buffer of every stream over one heap; overflow, write, str, str (v), the members the compiler makes, ostream::swap, vformat (sostream.cc:27-62, 120-171, mostream.h:51-97) | invariant over the heap (a stream is a full string, or owns a buffer with room); refinement to values |
| C103 | a table of descriptors, any number of objects with a descriptor and a state each; open, attach, detach, close, write, the destructor and the members the compiler makes (fstream.cc:22-128, 169-188) | refinement to objects that hold files; invariant: descriptors of objects are open and distinct |
| C104 | malloc and free are parameters with what C says of them; tmalloc, nfree and nfreen (unew.cc:8-19) over bytes and live blocks | refinement to a list of separate objects; invariant: live blocks are those of the objects, and disjoint |

No property is planned as not applicable. Performance, code size and compiler behaviour are out of scope.
