# Formal model of CyberMiles/libeni

Source of truth: `/repo` (C++), read as text. The model is written in Lean 4 (`lean/Verif`), one
definition per C++ function, each with a comment citing file and lines.

## Layout

| directory | contents |
|---|---|
| `lean/Verif/Model`  | the executable model of the code |
| `lean/Verif/Spec`   | small independent specifications (finite maps, sequences, JSON grammar, RFC text, ...) |
| `lean/Verif/Proofs` | invariants and helper lemmas |
| `lean/Verif/Props`  | property theorems only, one file per area, each followed by `example`s showing that hypotheses are satisfiable |

## Trusted base

* Lean's kernel, and the axioms `propext`, `Classical.choice`, `Quot.sound` only (`#print axioms` of every theorem in
  MANIFEST.json is in `lean/Verif/Audit.lean`). No `sorry`, own axioms, `native_decide`, `bv_decide`.
* The hand translation from C++ to the model, described below. Nothing links the two mechanically.
* The C++ semantics we assume: LP64, two's complement, `unsigned` = 32 bit wrapping, `size_t` = 64 bit
  wrapping, signed 8-bit `char` (C113 is about unsigned `char`), the libc/libstdc++/boost/openssl functions behave as documented.
  RSA keys are assumed to be within the limits of openssl (modulus of at most 16384 bits, public exponent below the modulus and of at most 64 bits if the modulus
  has more than 3072): other keys are refused by the library, which the model does not show. This concerns the positive statements of C48, C64, C89, C102, C119. `C131_limits` (Model/CryptoLimits) has the
  set of refused keys as a parameter: with such a key both operations name a price and return no result, with all other keys they are as modelled.
  These limits are from memory of the openssl sources; they are not in /repo and could not be looked up here.

## Conventions of the model

* Outcomes: `Res α = ok a | throw e | ub why | diverge | exit code`. Undefined behaviour (modulo by zero, null or
  out-of-bounds access, reading the wrong union member, reading freed memory) is the separate outcome `ub`;
  a loop that never exits is `diverge`. Theorems of the form "returns x" therefore exclude UB and divergence.
* Loops that may not terminate are modelled with fuel. The public function uses a canonical fuel; `*_diverge_iff`
  lemmas show that running out of this fuel means running out of any fuel, so `diverge` is not an artefact.
* Machine arithmetic that can wrap is written with explicit `% 2^32` / `% 2^64`. Theorems about long histories
  carry a size bound hypothesis (no more than 1073643498 entries, about 2^30: from there on growth computes with wrapped counters, see C78) and say so.
* Memory: entry objects of hash tables have addresses and a heap of live addresses; vectors own a buffer;
  JSON values own storage cells in the ownership model (C34). Elsewhere storage is implicit.
* Not modelled: stack exhaustion by deep recursion (but see C76 for the depth of the parser), exceptions thrown by std containers for lack of memory
  (except the allocator of `Vector`, C21, and hash tables, C83), threads (the library has none), stderr text except parser messages.

## Properties

"FALSE" marks properties the code does not have: the theorem listed is then a disproof with a concrete witness plus
the strongest positive `_partial` theorem.

### Hash tables (Model/HashBase, HashTable, HashIterator; StringMap)
* C01 generic table over a key type, arbitrary hash; invariant `WF` (counts exact, cyclic reachability, distinct keys);
  simulation with `List (K × V)` finite map over all histories.
* C02 fuel-modelled probe loop; `WF` has an empty bucket so the probe stops; bucket index always `< nb`.
* C03 iterator = bucket index scan; sequence of visited entries equals the entry list; permutation of the abstract map.
* C04 entries carry addresses; doRehash permutes `(addr, key, value)` triples.
* C05 invariant of histories; arithmetic on compute_bucket_size.
* C06 copy of the heap cells: new addresses are fresh; histories only touch their own addresses.
* C07 FALSE (copy of a table without buckets computes `% 0`).  C08 FALSE (self-assignment empties the table).
* C09 FALSE (full-hash collisions counted; hash 0 dereferences a null entry); partial: no collisions, hash ≠ 0.
* C10 FALSE for copy and move assignment onto non-empty tables (old entries leak). Programs with several tables (Spec/WorldSpec, `MPre`) may contain
  such assignments: `forgotten` counts the overwritten bindings, and `C10_programs` shows that exactly so many entries have no owner. C06, C81 and
  C82 hold for the same programs.
* C77 FALSE (initial size 2^32 - 131101 gives no buckets at all, 2^31 gives positions that are negative as `int`); all other sizes agree.
  C78 FALSE (1431655765 buckets: three times that is 2^32 - 1, so the table never grows and finally has no empty bucket); proved up to
  1073643498 keys. Both disproofs are by induction over the insertions, not by running the model.
* C79, C80 FALSE after `rehash(n)` (a removal from a nearly full table makes it grow: iterators, which are indices, then designate other
  buckets; a loop that removes while it iterates sees an entry twice). Without `rehash(n)` a removal keeps the number of free buckets, so
  the test for a rehash fails and only the one bucket changes. The loops of the client are in Model/HashClient.
* C98 Model/HashArrays: the same programs with the pointers `m_Buckets` and the blocks behind them; requests are granted (C83 treats refused ones).
  FALSE for move assignment onto a table with an array; `dropped` (Spec/WorldSpec) counts those, and exactly so many arrays are lost.
* C81, C82 Model/HashIterator: iterators with their table pointer over the states of whole programs (`World`). C82 FALSE for unbound keys with
  hash value 0 and tables without array. `*it` does not compile (HashIterator.h 179-180 call a missing member), only `it->` is modelled.
* C83 Model/HashAlloc: every request for memory (array, entry, array of a rehash) can be refused. FALSE (null pointers are used unchecked);
  proved: for every choice of refusals the outcome is undefined behaviour or exactly the reports of the finite map.
* C86 Model/HashCost: the operations with a count of the entries moved. FALSE (growth by a constant; wrapped test for removed entries with
  large initial sizes). Upper bound by a potential function (used buckets above 3/4) plus the cost of the sizes left behind since the last
  `clear`; lower bound from the number of buckets.
* C84 Model/StringEntry: an entry is a block of bytes, with the layout of the Itanium ABI for any size and alignment of the value type.
  C84_tight: one byte less would not do.
* C85 FALSE for scalar value types (the constructor of `Entry` does not mention the value, so it is indeterminate). Values of the map are
  `Option W` with `none` for an indeterminate value; proved for class types and for histories that read only bound keys.
* C11 instance with SDBM hash and 16-bit key length.  C12 FALSE for keys ≥ 65536 bytes.
* C13 hash functions as folds on 32-bit words.  C14 FALSE with ≥ 16 dots; partial: fewer than 16 dots.
* C72 FALSE of BP, JS, AP (witnesses); for the others one step is injective in the state and in the character (multiplication by an odd
  number, rotation, or for ELF/PJW rotation within 28 bits).  C73 FALSE (comment and code of ES disagree on letters, '-' and dots).
* C58 copies (FALSE for assignment: missing return). C59 polynomial hashes as homomorphisms.
* C15 FALSE (n < entries diverges, n = entries leaves no empty bucket so a later find diverges); partial n > entries.

### Vector (Model/Vector, Model/PointerIterator)
Element types are trivially copyable (moving elements by `realloc` and assigning to raw memory is undefined otherwise). A vector owns a
buffer of cells that may be uninitialised; the allocator is an oracle, one answer per operation. `realloc(p, 0)` frees `p` and returns
null (glibc). Model/VectorIter has the overloads that take and return iterators; a vector is
paired there with the identity of its block, and an iterator into any other block is undefined behaviour.
* C16 representation relation to `List`, simulation of every operation, histories with refused allocations (`VHist`). C17 checked access.
* C18 FALSE (last = size throws). C19 FALSE (dangling reference after reallocation; shifted element). C20 FALSE (doubling loop wraps to 0
  and never ends, byte count wraps; Props/VectorReserve says exactly which requests are served). C21 refusal leaves the vector unchanged. C22 pointer model (block, index), UB outside of the block.
* C60 FALSE (constructors ignore the result of calloc). C61 FALSE (capacity is recorded as the requested size: no amortised growth).
* C69 FALSE for `erase` up to `end()` and of empty ranges. C70 `insert` of a range of the vector itself is FALSE (released block, or elements already moved);
  `copyFwd` copies element by element in ascending order as `std::copy` does. C71 FALSE (`new T(...)` is copied and never deleted).

### JSON (Model/JsonValue, JsonParser)
The text is the list of bytes that are left, followed by the terminating NUL of `std::string::c_str()`. Callbacks are a list of events
that a second function (`cbRun`, Callbacks.h) folds into a value. The grammar (Spec/Json: `JText`) and the observation of a value
(`Shows`) do not mention the parser. Objects are the StringMap model, so texts with objects are limited to 1073643498 bytes.
`int256_t` (boost) is a sign and a 256-bit magnitude, reduced modulo 2^256 on overflow.
Not modelled: recursion depth (stack), text of the error messages; the ENI types other than `s256` only in Model/EniTypes (C109).
* C23 scanner `parseValue_post` (every outcome is acceptance or an error) and callbacks never fail on the events of a scanner.
* C24 soundness from the post-condition, completeness by induction over the grammar, unambiguity from determinism.
* C25 FALSE (a string-literal pointer is compared with the end of the buffer); partial: equal to a good layout or failure.
* C26 round trip for strings. C27 FALSE for objects (keys printed without quotes); partial: values without members.
* C28 sign-magnitude 256-bit reduction. C29 hash table + callbacks. C30 printing. C31 success/root.
* C32 FALSE (trailing bytes ignored). C33 FALSE (`g_NullValue` is the integer 5); objects and arrays right.
* C120, C121 (Model/Overload, Spec/Overload): implicit conversion sequences and their ranking as in the C++ standard, applied to the constructors and
  subscripts of `Value`; FALSE both. The null value of C33 is derived from the enumerator `UNDEF` (`C120_null_value`). Not modelled: references to
  volatile objects, classes of the user with conversion functions, initialiser lists, bit-fields, enumerations with fixed underlying type.
* C122 (Model/PrintStream): each `<<` of the three print functions is one piece of output; what `<<` writes for characters, strings and Boost's numbers
  in a stream with given flags is library behaviour and part of the model. FALSE. Not modelled: `internal` adjustment, buffers that refuse output
  in the middle, streams that throw.
* C34 FALSE for four kinds of aliasing (`a[0] = a`, `a.push_back(a)`, `o[k] = o`, `a.push_back(a[0])`). Model/JsonOwner: values are a type
  tag and a union pointing into a heap; programs over any number of variables and places inside them. Proved by simulation with plain
  trees (Spec/Owner) under an ownership invariant (every live value owns its own cells): `C34_values_partial`.
  Missing for the full statement: nothing can be added, the excluded programs are undefined.
* C125 (Props/OwnerArray, Model/OwnerArray, Spec/OwnerArray): the programs of C34 with `clear`, `resize` and assignment of the arrays inside values. FALSE if the target
  is a part of the source (the half-assigned target is copied into itself) and for every assignment of objects (`StringMap::operator=` does not return). The loop of
  `std::copy` is followed element by element; one invariant covers self-assignment and sources that are parts of the target, whose owner is overwritten on the way.
  C125_exact_partial: the exact numbers of heap objects allocated and lost by such a program (numbers per operation in Spec/OwnerArray).
* C126 (Props/OwnerKind, Model/OwnerKind, Spec/OwnerKind): the programs of C125 with the copy and move operations of the public base class `Notation`. FALSE: they change
  the type without the contents. `C126_mixed_false` holds in every state that a permitted program reaches; `locate_inj` (two paths to one place are equal) is what makes the
  self-move test of Notation.cpp 37 agree with the trees.
* C127 (Props/VectorCapacity, Spec/VectorCapacity, Proofs/VectorCapacity): the histories of C16 made deterministic. The specification `cstep` keeps two sequences and two
  numbers; `need` is what an operation asks room for. Every operation is `reserve` followed by stores that keep the block (`Grew`, `Keep`), then combined with the simulation of C16.
* C128 (Props/ConsensusReport, Model/ConsensusReport): the characters that consensus.py prints about a case. Lines are recovered from the text (`unlines_inj`), statuses from
  their decimal digits (C28). FALSE for trailing white space and for outputs of several lines.
* C129 (Props/RsaWork, Spec/RsaWork): a method of exponentiation is any program of multiplications (an addition chain) for exactly the given exponent;
  `exec_map` relates its exponents to its values, `power_le` is the lower bound, repeated squaring the upper bound. FALSE: the price ignores the exponent.
  Not considered: methods that use the factors of the modulus (Chinese remainders in rsa_decrypt); which program openssl uses. The limits of openssl on keys
  are not in the model, so `C129_factor_false` (no factor at all) is about the model only; `C129_limits_false` is within the limits (3072 bits: none against
  at least 3069 multiplications; existence of the primes by Bertrand's postulate in Mathlib).
* C130 (Model/PrintValue, Spec/PrintValue, Props/PrintValue): values as kind and eight bytes of the union; programs with arbitrary addresses from the
  allocator. FALSE (three witnesses); `C130_plain_partial` by simulation with a specification that knows contents, whether an address was ever stored, and the
  last boolean. Trusted: gcc's reading of an inactive union member, 64-bit little endian, the format of pointers in libstdc++. printValue has no caller in /repo.
* C131 (Props/Promise): `gas_from` reads off a returned price which hooks returned what; reverse, json and scrypt keep the promise, RSA does not (FALSE for every key).
* C122_radix (Props/PrintStream): what integers look like on a stream in base 8 or 16, against a separate definition of digits; added after a mutant of `digit` survived.
* C74 FALSE of objects (unquoted keys make `{a:1,b:2}` the print of three different objects). C75 FALSE (bucket order; `{"a":1,"r":2}` and
  `{"r":2,"a":1}` print differently). C76 FALSE (recursion depth = nesting); exact depth for texts of the grammar, one more than the
  number of opening brackets for any text. The fuel of `parseValue` is the number of nested activations, nothing else consumes it.
* C35 FALSE above 0x7f; partial: ASCII. C62 FALSE for objects (line feeds); strings and object-free values right.
* C63 FALSE (numbers, array elements and overwritten contents leak); partial: destruction of strings and objects.
  Spec/OwnerCount says how many heap objects each operation allocates and loses; `C63_exact_partial` shows that the code does exactly that in
  every permitted program (counted are integers, strings, arrays and objects, not the buffers of vectors and hash tables).
* C97 (Model/ScanCost): the scanner once more in a monad that counts the looks at a character (every comparison with the current character, and
  every byte of a literal compared). `C97_same` says that it is the scanner of C23 to C32. The constants 64 and 32 are not optimal.
* C90 to C92: Model/ParserMem executes the callbacks of the parser on values in memory, with every temporary, by-value parameter and stack element as
  a variable of its own; when `std::vector` moves its elements (by copying, because the move constructor of `Value` is not `noexcept`) is a
  parameter. Proved by simulation: the memory follows a machine on trees (Proofs/ParserRun), whose runs over the events of a value are
  computed by induction (Proofs/ParserLoss). C90 holds; it depends on `~Value` never releasing integers: `on_number` delegates to a local
  `s256` that dies before the value. C91 FALSE (`["x"]` loses five objects); `Spec.Clean` says exactly which values lose nothing.
  C92 FALSE (nested arrays lose a quadratic number of objects); a quadratic bound holds for every text.

### ENI base (Model/EniBase)
An operation is a record of hooks over a state type (`Base.Hooks`): parse, gas and run may succeed, throw or be undefined. An object
logs the hooks it invokes, so "is invoked at most once" is a statement about the log. `Spec.accepted`/`Spec.rejected` say what a session
(any list of `getGas()`/`start()` calls) answers once the verdict is known.
* C36 FALSE for hooks that throw (`m_Parsed` is set after the hook returns, so the hook is invoked again). Proved: at most one invocation
  returns and none follows it; hooks that always return are invoked at most once. C37 for all sessions. C38 object-free results.
* C39 FALSE (JSON that is not an array: `toArray()` is unchecked). All outcomes of `OP_gas` characterised.
* C40 FALSE (the result array is kept between calls); partial: rejected arguments, idempotent hooks.
* C41 entry points construct their own object; what could differ is the layout (C25).
* C93, C94 (Model/EniMem): the entry points on values in memory. A parse hook is a program (`Rd`, a tree of accesses) that reads its arguments through
  pointers; results are stored by `emplace_back`. C93: what comes out is what the hooks make of the JSON value that the text denotes
  (Spec/EniMem: `expectRun`, `expectGas`, which mention neither memory nor parser), and the same as Model/EniBase says. Undefined behaviour of a
  hook itself is passed on; texts that are not arrays are undefined behaviour (C39). C94 FALSE (each result leaves three objects behind, an
  exception leaves everything); exact amounts for every outcome, counting heap objects of values, the operation object, the objects created by
  `emplace_back` and the memory handed to the caller. Not counted: buffers of vectors and hash tables, `std::string` temporaries.
* C95, C96 (Model/EniMem `session`, Spec/Session): several calls in one process. Each call starts from the memory the previous one left; addresses are
  never used again, so an access to released memory cannot go unnoticed. C95: same results as in processes of their own, for all texts and operations.
  C96 FALSE; the amount left is the sum of the amounts left by each call. The caller catches exceptions; what it does with the memory it gets is not modelled.
* C99 (Model/OpsMem): the five operations of /repo as programs for Model/EniMem. For every text with keys of at most 65535 bytes and after any calls, the
  outcome in memory is the one of the models on plain data (Model/Reverse, Scrypt, Crypto, JsonTool), so the properties about those hold in memory too.
  The hooks share the functions on plain bytes with those models; what is proved is that reading through pointers, `emplace_back`, printing and
  what earlier calls left make no difference. Keys of more than 65535 bytes are excluded because only the plain model cuts their lengths (16 bits).
* C100 (Model/Allocator): `MallocAllocator` over a memory of blocks of bytes; `malloc` may refuse. Programs over any number of arrays, specified
  with arrays without bytes (Spec/Allocator). FALSE above `max_size()`: the product wraps around; also for the specialisations for `void` (the
  count is taken as bytes) and for table entries (the count is ignored; the tables only ask for one, C84). `address`, `rebind` and the empty
  constructors are not modelled.
* C101 (Model/HashLoop): the loops of the hash functions as a relation between the local variables before and after, with the 32-bit index of the
  code. FALSE from 2^32 bytes on. `C101_value` links the loops to the recursive functions of Model/StringHasher.
* C102 (Props/Gas): the entry points `OP_run` and `OP_gas` of the five operations on the same text, `Priced H c`: a result has at most price + c
  bytes. Nothing is assumed about the text.
* C103 (Props/Gas): FALSE. Witnesses of any length with price 0 (rsa_encrypt: 10 times the size of the key). The part about memory uses the
  exact amounts of C94.
* C104 (Props/JsonToolSafe, Spec/KeyText): the functions of json on arbitrary token lists, not only those of JSON texts (C49, C50): jsmn also
  delivers lists for other data, and its second result is ignored. FALSE. `C104_array_partial` relates `arrayGet` to `parseArray`,
  `C104_object_partial` relates `objectGet` to `arrayGet`; both say exactly when the outcome is undefined.
* C105 (Props/VectorObj, Model/VectorObj, Spec/VectorObj): the vector for element types that own something; Model/Vector is about trivially
  copyable ones. A cell holds indeterminate bytes, zero bytes or an object, and `operator=` asks what it is applied to. FALSE: `realloc` gives
  indeterminate bytes and moves objects, no destructor is called. `C105_ordinary_partial` and `C105_growth_false` together are an exact
  characterisation for classes with an ordinary `operator=`; `C105_blind_partial` is about `json::Value`, whose `operator=` overwrites its target.
  Not modelled here: refused memory, wrapping sizes (Model/Vector), arguments that are elements of the same vector.
* C115 (Props/VectorThrow, Model/VectorThrow, Spec/VectorThrow): FALSE. The functions of Model/VectorObj again, copy by copy, when copies of elements may
  throw; which ones is an arbitrary function of their number in the program. `C115_exact_partial` gives the sequence after every call of every history
  in which no `push_back` or `emplace_back` fails; `resize` is all-or-nothing. The `_false` theorems: a failed `push_back` makes the vector longer (its last
  element is indeterminate, or a removed one), a failed `insert` leaves default values, a failed `erase` doubles an element, a failed `pop_back` loses
  one. Assumed of the elements: a failed copy leaves its target alone, default values and the object of `emplace_back` can be made. Not modelled: a
  constructor that fails (the block it has allocated is lost, since no destructor runs).
  `C115_objects_partial`: the balance of objects made and released for every history that is defined, whichever copies fail (Proofs/VectorThrowCount).
* C116 (Props/HashThrow, Model/HashThrow, Spec/HashThrow): FALSE. Histories on one table in which the constructor of an entry may throw; the caller catches
  the exception. `insert` has then already lowered the counter of tombstones (if the bucket holds one), stored the hash value and lost a block. The proof
  follows the true number of tombstones (`hat`) and how much the counter is too low (`Debt`, modulo 2^32): `mayRehash` compares the number of empty buckets plus
  the debt with an eighth of the array, so fewer than an eighth of the buckets many failures cannot fill the array (`C116_few_partial`: two for the smallest
  array of 17). `C116_three_false` fills it after three. `C116_count_false` holds for every history without removals and every absent key. The failed copy
  assignment is undefined for every non-empty source (`C116_assign_false`); a failed copy construction loses the entries made so far (`C116_copy`). Not modelled:
  `setValue` throwing, tables assigned to themselves, moves.
* C123 (Props/HashVary, Model/HashVary, Spec/HashVary): histories on one table in which every call brings its own hash function, and in which `Entry::key()`
  is assigned to. The proof compares with a ghost table over keys paired with hash values, hashed by the second component, for which C01-C10 are
  available: both take the same steps, since a key is compared only after the stored hash value has been found equal and rehashing uses stored values. `C123_orphan`
  says what becomes of an entry whose key is overwritten. Not modelled: a hasher that throws, a comparison of keys that is no equality.
* C106 (Props/PrintCount, Model/PrintCount): `Value.print` of Model/JsonValue leaves out that the counter of `Array::print` is an `int`; `printR`
  has it. FALSE from 2^31 elements on; below, `printR` is `print`, so C26-C30 speak about the code for such values.
* C107 (Props/ProbeCost, Model/ProbeCost, Spec/ProbeCost): the functions that store a member, with a count of the iterations of `lookupBucketFor`; `C107_same`
  ties them to the model of C23-C32. FALSE: SDBM maps `bbb0` and `AaAo` to the same continuation of every hash value, so concatenations of these words
  all collide; the cost of such an object is computed exactly. Not counted: the iterations that find a place for moved entries (C86 counts the moves).
* C108 (Props/Docs): the prices shown in docs/testing-prebuilt-eni-operations.rst and described in docs/guides/implement-eni-operations.rst against what the tools
  print (C66, C89). Disagreement: the documentation counts characters, the code charges ten per byte; for reverse, scrypt and both RSA operations no non-empty
  argument has the documented price (`C108_*_false`). `eni_run reverse` prints what is documented (`C108_run_partial`). Second disagreement (Props/DocsUnquoted,
  `words` of Model/TestLib): the RSA commands of docs/tools/eni_cli.rst:49-52 have `$(cat ...)` without quotation marks; the shell splits the text at its
  spaces, and both tools print their usage and fail, whatever the key, the message and the system (`C108_unquoted_false`). Expansion of file name patterns is not modelled.
  Third: both expectations of the test program in docs/guides/test-eni-operations.rst fail (`C108_guide_false`); `C108_guide_partial` says what it observes.
* C109 (Props/EniTypes, Model/EniTypes): numbers as magnitudes below 2^w, `to_string` as the decimal digits; specification: `NatText`/`IntText` of Spec/Json
  and the JSON parser reading the text back. Boost's digit generation is part of the trusted base.
* C110 (Props/EntryAlloc, Model/EntryAlloc): `OP_gas` and `OP_run` with a flag that says whether `malloc`/`strdup` succeeds. Disagreement: `*ptrGas = gas` without a
  check (`C110_gas_false`); a null pointer from `strdup` is the same as a rejected argument (`C110_run_false`).
* C111 (Props/EniTypes): from C24; the array the hook `parse` receives does not depend on the operation, and the accessors return the arguments.
* C112 (Props/PrintMem, Model/PrintMem, Spec/PrintMem): `Value::print` on the heap of Model/JsonOwner; every dereference can be undefined. Induction on
  the fuel over `Holds`; the order in which an object visits its members is any permutation (`Orders`). Agreement with the pure
  `Value.print` through `Shown`, for all values; equality for values without members.
* C113 (Props/CharSign, Model/CharSign, Spec/CharSign): every place of the code in which the value of a `char` matters, with the kind of `char` as a
  parameter; the signed instance, operations and entry points included, is proved equal to the other models (`C113_signed`). The two programs are run side by side: two tables that
  represent the same finite map under two hash functions (`HRel`), values built by the same steps (`Twin`), and for texts with keys of any
  length a weaker relation that only says that both go on (`Shape`). Disagreements: hashes of strings that are not ASCII (`C113_hashers_false`), hence the order in
  which such members are met and printed (`C113_print_false`); messages of `rsa_decrypt` with bytes from 128 on (`C113_decrypt_false`).

* C114 (Props/OneDef, Model/OneDef, Spec/OneDef): FALSE. `ParserError` is declared in an unnamed namespace of Parser.h, so every translation unit has a class of
  its own, while the inline functions of `Parser` are shared by the linker. By the standard such programs are undefined (one definition rule); the model
  shows what they do: which part the code of each running function comes from, given arbitrary decisions of compiler and linker. Exact condition
  (`C114_exact_partial`); `C114_escape_false` is the library together with the module of the json example. The other models of the parser assume that it holds.

* C117 (Props/Catch, Model/Catch, Spec/Catch): FALSE for handlers by value. Exceptions are objects of a class with public and private bases; a handler matches
  by the rule of the standard. Theorems cover every list of handlers by splitting it at the first one that hears the exception. `std::logic_error` and its
  descendants keep the text (so it survives slicing), `std::bad_alloc` does not; the primary template has a member that is never set, which a copy reads.
  `C117_vector` ties this to the model of vectors (which exceptions each operation can end with, in any state), `C117_map` to that of string maps.
* C118 (same files): FALSE. Static objects of library and program are initialised in an arbitrary interleaving and destroyed in the reverse order; use of
  one outside its lifetime is undefined. `C118_exact_partial` gives the condition. Not modelled: objects local to functions, threads, and that a shared
  library is initialised before the program that needs it (which makes the condition hold).

### Operations and tools
* C42 reverse (Model/Reverse): from the entry point, every notation of the argument array.
* C43-C46, C57 scrypt (Model/Scrypt): SHA-256 is an arbitrary implementation of the `Init/Update/Final` interface (openssl is not part of
  /repo). Buffers have arbitrary initial contents, the scratchpad any address; all indices are checked. Spec/Scrypt states HMAC (RFC 2104),
  PBKDF2 (RFC 8018), Salsa20/8 and scrypt (RFC 7914) for all parameters, without reference to the code. The model was also run natively
  against the vectors of test/ScryptTest.cpp. Not modelled: the SSE2 variant, which is only declared in /repo (scrypt.h 20) and has no definition, and its selection (scrypt.cpp 288-322).
  C45 is FALSE for the iteration count 2^64-1 only (endless loop).
* C124 (Props/ScryptWork, Model/ScryptWork): FALSE. The functions of scrypt.cpp once more with counters for calls of `xor_salsa8`, bytes and results of SHA-256 and
  accesses to the scratchpad; `Proofs/ScryptWork` shows that the counting functions compute the same and how much each adds. Every accepted argument is filled up to 80
  bytes, so the work is one constant (4096 calls, 804 bytes, 12 results, 32768 words written, 32768 read), but the price is ten per byte *given*: `[""]` costs nothing.
  `C124_pbkdf2`: the work of `PBKDF2_SHA256` for every number of iterations. The counters of memory for the local buffers (`X`, `B`, `T`, `U`) are not modelled.
* C47, C48, C64 crypto (Model/Crypto): RSA without padding is `x^e mod n` on blocks of the size of the modulus (openssl is not part of
  /repo); PEM texts are read by an arbitrary function. A key pair is specified in Spec/Rsa by its primes. C47 is FALSE for upper-case
  digits (`hex2digit` subtracts 'a'). C48 is FALSE: messages are C strings (NUL), full-length messages are read past the end, padding is
  appended behind the message so that short messages with a large first byte are refused, long ones are cut. `C48_outcome` gives the result
  for every message and every key pair.
* C87 (Model/CryptoRes): the functions and the two operations again, with a ledger of the keys, BIOs and buffers that are held; programs over any
  number of `RSA*` variables and sessions with an operation object. FALSE (BIOs and buffers are never released, a parse hook that throws and
  runs again loses its key); exact numbers. `C87_answers`: with the ledger the operations answer as those of Model/Crypto. A message argument
  of another type than string is undefined behaviour (C55) and ends the session.
* C119 (Model/CryptoLen): FALSE. The length of the message for decryption is converted to `int`; only its residue modulo 2^32 counts. The outcome
  for a negative length is a parameter (it differs between versions of openssl). C119_short links it to the functions of Model/Crypto.
* C49, C50, C51, C65 json (Model/JsonTool): jsmn is a missing submodule, its result is a parameter. Spec/Tokens says which token list belongs
  to a JSON text (all of JSON, at any position); Proofs/Tokens shows that there is only one. The theorems link the token list to the values
  of the ENI grammar: the returned range is exactly the text of the element. C52 is FALSE: the end is used as a length.
* C53, C54, C66 command-line tools (Model/Cli): `dlopen`/`dlsym` are functions of a record `Sys`, the functions of a library have all outcomes
  of `Res`. Spec/Cli defines the positional arguments by `takeWhile`/`dropWhile`/`filter`, not by the loop. C54 is FALSE: `eni_run` exits with
  1 for a bad command line, and `eni_gas` releases memory of `malloc` with `delete` (undefined; `deleteFrees` says whether the allocator
  tolerates it). Not modelled: text of dlerror on stderr.
* C88, C89 (Props/Tools) compose the theorems on the tools, the entry points, the grammar and the operations. C88 is FALSE for JSON texts that
  are not arrays (C39).
* C55 FALSE (Props/OpArgs): missing arguments and arguments of a wrong type make `parse` throw (nobody catches; the process aborts); the
  argument arrays that are accepted are characterised for each operation.
* C56, C67, C68 consensus.py (Model/Consensus): an exception is `none`; executions are an arbitrary sequence of results. C56 is FALSE when the
  output is not UTF-8: `decode` raises, e.g. for the correct result of reversing "é". C68 is FALSE for files with quotes. Model/ConsensusReadf has
  `readf` (universal newlines, `rstrip`): the string is the contents exactly if these are UTF-8, have no CR and do not end with LF (`C68_readf`, `C68_file`), so the
  documented "string containing the file content" is also FALSE for the project's own data files, which end with LF (`C68_file_false`). Assumed: a UTF-8 locale.
  C67 holds of lists of cases (`C67_script`) and of files in which no library is named twice (`C67_file_partial`). It is FALSE of other files
  (Model/ConsensusFile): `json.loads` keeps the last list for a name, so cases written earlier are never run (`C67_twice_false`) and a case that
  differs from run to run goes unnoticed (`C67_missed_false`). The project's own `tests.json.in` names eni_scrypt.so twice, so its case
  `scrypt h:160` is never run (`C67_shipped_false`). `C67_run`: for every file, a case is run iff it is in the last list of its library. The file is the list of its members; reading the text is not modelled.
* C132 (Props/ConsensusShipped) FALSE of scrypt: with the project's list of tests the only case left for scrypt is `s:160`, 160 random upper-case letters
  and digits, which scrypt refuses unless all of them are hexadecimal digits (`C132_chance`: fewer than one text in 10^56). `eni_run` then ends with
  status 5 and prints nothing, which the script counts as equal results, whatever SHA-256 does (`C132_scrypt_false`). `C132_hex`: the lost case would
  have had a result. Proved of reverse, rsa_encrypt (first bit of the modulus set) and rsa_decrypt (block below the modulus, NUL in the result).
  The random texts are arbitrary results of `rands` and `randh`; reading the key files is a parameter.
* C133 (Model/TestLib, Props/TestLib) the shell functions of the regression tests. A command is the list of its writes to the two streams and its status; `$(...)`
  drops NUL bytes and cuts off line feeds at the end. FALSE: a command that crashes after it wrote its line passes, as does an error message equal to the
  expected text. `C133_passes` is the exact condition; `C133_line_partial` is what is left of the claim for commands that write one line.
* C134 (Model/ConsensusGen, Spec/PyInt, Proofs/PyInt, Props/ConsensusGen) the functions behind `s:`, `h:` and `f:`, with Python's `int` for ASCII texts, proved to accept
  the grammar of the language reference (`pyInt_iff`). FALSE: `arg[0]` and `arg[2:]` are used and `arg[1]` is not, so `s32` is two random characters
  (`C134_colon_false`); a negative length is the empty text (`C134_negative_false`). The choices of `random` are arbitrary. Not modelled: digits of other scripts,
  the limit of 4300 digits of later Python versions.
* C135 (Model/PyDumps, Props/PyDumps) what `eni_xx` of the JSON tests sends. `json.dumps` belongs to Python and is modelled from its documentation for lists of strings
  (no surrogates), integers and booleans. FALSE of every string with a character that is not ASCII: the escape is decoded to its low byte, a surrogate pair to two
  (`C135_utf8_false`), and 'A' and U+0141 become equal (`C135_collision_false`). `C135_exact` is what arrives of every list (`C135_operation`: at the
  hooks of any operation); `C135_ascii_partial` the part that holds. Positions count characters exactly below U+10000 (`C135_positions_partial`, `C135_positions_false`).
* C136 (Model/JsonTests, Props/JsonTests) `u32hex2int`, `assertRange` and `assertRanges` of the JSON tests; an assertion passes, fails, or ends with another exception.
  `int(b, 16)` is a parameter with the assumption `ReadsHex`. FALSE of `assertRanges`: an operation that returns additional ranges passes (`C136_extra_false`),
  and for the elements of any array the last ranges may be left out of the expectation (`C136_prefix_false`).

Check of the model against the project's tests (Props/Vectors): the expectations of t0002, t0006, t0007, t0008, t0009, of the jsontests and of the unit tests for
the parser, the string map, the number types and the hexadecimal functions are evaluated on the model and agree. These are tests of the model, not proofs of properties.
