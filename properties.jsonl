{"id": "C01", "title": "HashTable behaves like a finite map", "statement": "For every key type, every hash function and every history of insert-or-assign, erase, find, clear, rehash() and rehash(n) with n larger than the number of entries, each call returns exactly what a finite map would return: insert reports 'exists' iff the key is bound and never changes an existing value, erase returns true iff the key was bound, find returns the latest value assigned to the key or end().", "quantifier": "all key types, all hash functions (including constant ones), all operation histories, all keys and values", "why_tests_cant": "collision patterns, tombstone placements and rehash points depend on the whole history; tests use two hash functions and a handful of histories", "anchors": ["include/eni/adt/bits/HashTable.tcc: insert, erase, find, clear, rehash", "include/eni/adt/bits/HashBase.tcc: lookupBucketFor, findKey, mayRehash, doRehash"]}
{"id": "C02", "title": "Hash table operations always return", "statement": "In every state reachable by such a history, insert, erase and find return: the probe loop never runs forever and never reads a bucket outside the allocated array.", "quantifier": "all reachable tables, all keys", "why_tests_cant": "non-termination needs a table with no empty bucket, which only a bad accounting of entries and tombstones over a long history would produce", "anchors": ["include/eni/adt/bits/HashBase.tcc: lookupBucketFor, findKey, mayRehash"]}
{"id": "C03", "title": "Iteration visits every binding exactly once", "statement": "Iterating a table from begin() to end() visits every bound key exactly once, with its current value, and takes exactly numOfEntries() steps; advancing end() throws InvalidIteratorEmpty.", "quantifier": "all reachable tables", "why_tests_cant": "depends on arbitrary bucket layouts", "anchors": ["include/eni/adt/bits/HashTable.tcc: begin, end", "include/eni/adt/bits/HashIterator.tcc: EntryIterBase::advance, equals, getEntry"]}
{"id": "C04", "title": "Rehashing is invisible, entry pointers stay valid", "statement": "Growing or rehashing the table preserves every binding, and the entry pointer returned by insert keeps designating the same key and value after any later operations that do not erase that key or clear the table.", "quantifier": "all reachable tables, all later histories", "why_tests_cant": "a stale pointer shows up only when a later insertion happens to trigger a rehash", "anchors": ["include/eni/adt/bits/HashBase.tcc: doRehash", "include/eni/adt/bits/HashTable.tcc: insert"]}
{"id": "C05", "title": "Load bounds and counters are exact", "statement": "In any history without explicit rehash(n), after every operation the number of entries is at most 3/4 of the buckets and at least 1/8 of the buckets are empty; numOfEntries() and numOfTombstones() always equal the number of bound keys and of tombstone buckets.", "quantifier": "all histories of insert, erase, clear, rehash()", "why_tests_cant": "requires an invariant over all histories", "anchors": ["include/eni/adt/bits/HashBase.tcc: mayRehash, compute_bucket_size", "include/eni/adt/bits/HashTable.tcc: insert, erase"]}
{"id": "C06", "title": "Copies are equal and independent", "statement": "Copy-constructing a table that owns buckets gives a table with the same bindings; no entry is shared, so any later history on one of the two leaves the other unchanged.", "quantifier": "all reachable initialised tables, all later histories on either copy", "why_tests_cant": "sharing shows up only under particular later mutations", "anchors": ["include/eni/adt/bits/HashTable.tcc: HashTable(const HashTable&), operator=(const HashTable&)", "include/eni/adt/bits/HashBase.tcc: TableImpl(const TableImpl&)"]}
{"id": "C07", "title": "Any table can be copied and then used", "statement": "After copying any table - including one that was constructed with size 0, cleared or moved from - find, insert and erase on the copy have defined behaviour.", "quantifier": "all reachable tables", "why_tests_cant": "needs the corner state in which the table owns no bucket array", "anchors": ["include/eni/adt/bits/HashBase.tcc: TableImpl(const TableImpl&), lookupBucketFor, findKey", "include/eni/adt/bits/HashTable.tcc: clear, HashTable(HashTable&&)"]}
{"id": "C08", "title": "Self-assignment keeps the contents", "statement": "t = t leaves the bindings of every table t unchanged.", "quantifier": "all reachable tables", "why_tests_cant": "aliasing case never exercised by the tests", "anchors": ["include/eni/adt/bits/HashBase.tcc: TableImpl::operator=(const TableImpl&)", "include/eni/adt/bits/HashTable.tcc: operator=(const HashTable&)"]}
{"id": "C09", "title": "count(k) is 1 or 0 according to presence", "statement": "count(k) returns 1 if k is bound and 0 otherwise, for every key and table; the chain iterator visits the entries whose hash equals that of the key.", "quantifier": "all reachable tables, all hash functions, all keys", "why_tests_cant": "hash collisions and the hash value 0 are special cases that ordinary keys do not hit", "anchors": ["include/eni/adt/bits/HashTable.tcc: count, begin(key), end(key)", "include/eni/adt/bits/HashIterator.tcc: ChainIterBase::ChainIterBase, advance"]}
{"id": "C10", "title": "Entries are released exactly once", "statement": "Over the whole life of a table (any history, then destruction) no entry is released twice or used after release, and no entry is still allocated at the end.", "quantifier": "all histories", "why_tests_cant": "leaks and double frees depend on the history", "anchors": ["include/eni/adt/bits/HashTable.tcc: ~HashTable, clear, erase, operator=", "include/eni/adt/bits/HashBase.tcc: TableImpl::operator=, clear"]}
{"id": "C11", "title": "StringMap lookups", "statement": "For keys of at most 65535 bytes and every history of m[k]=v, erase and at: at(k) and const m[k] return the latest value or throw OutOfRange<InvalidStringMapKey> iff k is not bound, non-const m[k] binds k to a default value iff it was absent, and size() is the number of distinct bound keys.", "quantifier": "all histories over byte-string keys of length at most 65535", "why_tests_cant": "unbounded histories, collisions of the SDBM hash", "anchors": ["include/eni/adt/StringMap.h: at, operator[], size", "include/eni/adt/StringHashTable.h: Entry<std::string, ValueType>"]}
{"id": "C12", "title": "StringMap keys of any length", "statement": "A key of any length that has been assigned is found again: after m[k]=v, find(k) succeeds and size() grows by one only if k was absent.", "quantifier": "all byte strings k, without length limit", "why_tests_cant": "needs keys longer than 65535 bytes", "anchors": ["include/eni/adt/StringHashTable.h: Entry<std::string, ValueType>::Entry, key"]}
{"id": "C13", "title": "ELF and PJW hash values fit in 28 bits", "statement": "For every byte string (including bytes above 0x7f, which are negative chars) the ELF and PJW hash values are below 2^28; all string hashers are total functions of the bytes alone.", "quantifier": "all byte strings of any length", "why_tests_cant": "all inputs", "anchors": ["include/eni/adt/StringHasher.h: StringHasher<ELF>, StringHasher<PJW>"]}
{"id": "C14", "title": "The ES signature never rejects a substring", "statement": "If a rule string occurs in a text as a substring, then may_include(hash(rule), hash(text)) is true.", "quantifier": "all pairs of ASCII strings", "why_tests_cant": "all pairs of strings; counting dots is only 4 bits wide", "anchors": ["include/eni/adt/StringHasher.h: StringHasher<ES>::operator(), may_include"]}
{"id": "C15", "title": "rehash(n) always returns and keeps the table usable", "statement": "rehash(n) returns for every n, keeps all bindings, and afterwards find and insert return for every key.", "quantifier": "all reachable tables, all n", "why_tests_cant": "n close to or below the number of entries is never tested", "anchors": ["include/eni/adt/bits/HashTable.tcc: rehash(size_type)", "include/eni/adt/bits/HashBase.tcc: doRehash"]}
{"id": "C16", "title": "Vector behaves like a sequence", "statement": "For every history of push_back, emplace_back, pop_back (non-empty), insert (value, n copies, range), erase(first,last) with last < size, resize, reserve, assign, clear, swap and copy with arguments that do not alias the vector, contents and size equal those of a mathematical sequence under the same operations.", "quantifier": "all element types, all histories within the addressable size", "why_tests_cant": "growth boundaries and index arithmetic for all sizes", "anchors": ["include/eni/adt/bits/Vector.tcc: push_back, pop_back, insert, erase, resize, reserve, assign, clear, swap"]}
{"id": "C17", "title": "Checked access throws exactly out of range", "statement": "Vector::at(i) and json::Array::operator[](int) return element i when 0 <= i < size and throw OutOfRange<InvalidVectorIndex> for every other index, including negative ones.", "quantifier": "all vectors, all indices", "why_tests_cant": "all indices, signed/unsigned conversion", "anchors": ["include/eni/adt/bits/Vector.tcc: at", "include/eni/json/Array.h: operator[]"]}
{"id": "C18", "title": "erase removes any valid range", "statement": "erase(first,last) with first < last <= size removes exactly the elements with index in [first,last); in particular the last element can be erased.", "quantifier": "all vectors and ranges", "why_tests_cant": "ranges touching the end are not in the tests", "anchors": ["include/eni/adt/bits/Vector.tcc: erase(size_type,size_type)"]}
{"id": "C19", "title": "Arguments that refer to own elements", "statement": "push_back(v[j]) and insert(i, n, v[j]) insert the value v[j] had before the call.", "quantifier": "all vectors, all i, n, j", "why_tests_cant": "aliasing combined with reallocation and shifting", "anchors": ["include/eni/adt/bits/Vector.tcc: push_back, insert(size_type,size_type,const_reference)"]}
{"id": "C20", "title": "reserve returns, or throws LengthError when too large", "statement": "reserve(n) returns with capacity() >= n and unchanged contents, or throws; it does so for every n up to max_size().", "quantifier": "all vectors, all 64-bit n", "why_tests_cant": "huge sizes cannot be tried", "anchors": ["include/eni/adt/bits/Vector.tcc: reserve, max_size"]}
{"id": "C21", "title": "Allocation failure leaves the vector intact", "statement": "If the allocator refuses memory during push_back, reserve, resize or insert, BadAlloc<NoMemory> is thrown and contents, size and capacity are unchanged.", "quantifier": "all vectors, all allocation failure points", "why_tests_cant": "allocation failure is not injected by tests", "anchors": ["include/eni/adt/bits/Vector.tcc: reserve, push_back, resize, insert"]}
{"id": "C22", "title": "Random-access iterator laws", "statement": "PointerIterator arithmetic and comparisons form the usual random-access laws: (it+n)-it = n, (it+n)-n = it, ++/-- are inverse, pre/post increment differ only in the returned value, and <,>,<=,>=,==,!= are the total order of positions.", "quantifier": "all positions and offsets", "why_tests_cant": "all positions", "anchors": ["include/eni/adt/bits/PointerIterator.tcc: all operators"]}
{"id": "C23", "title": "The JSON parser is memory safe and terminates on every input", "statement": "For every byte string, constructing a Parser terminates with success or failure and never reads beyond the terminating NUL of the string.", "quantifier": "all byte strings, all pointer layouts", "why_tests_cant": "malformed and truncated inputs are infinite in number (CHANGELOG 1.3.6 fixed one such bug)", "anchors": ["include/eni/json/Parser.h: all parse_* and have, expect, valid_code"]}
{"id": "C24", "title": "The parser accepts exactly the ENI JSON grammar", "statement": "If Parser succeeds then a prefix of the input is a value of the documented JSON subset (bool, integer, string, array, object) and getRoot() is that value; conversely every such value, followed by anything that does not extend it, is accepted and yields that value.", "quantifier": "all byte strings, all values, all nesting depths (layout in which the literal comparison works)", "why_tests_cant": "all inputs and nestings", "anchors": ["include/eni/json/Parser.h: parse_value and callees", "include/eni/json/Callbacks.h: Callbacks"]}
{"id": "C25", "title": "Parsing depends only on the text", "statement": "Parsing the same text always gives the same result, wherever the text and the program happen to be placed in memory (required for consensus between nodes).", "quantifier": "all texts, all memory layouts", "why_tests_cant": "memory layouts differ between machines and runs", "anchors": ["include/eni/json/Parser.h: have(const char*)"]}
{"id": "C26", "title": "Every byte string survives print and parse", "statement": "Printing a string value and parsing the output gives back the same bytes, for every byte string including NUL, quotes, backslashes, control characters and bytes above 0x7f.", "quantifier": "all byte strings", "why_tests_cant": "all byte strings", "anchors": ["lib/json/Value.cpp: print", "include/eni/json/Parser.h: parse_string, parse_escape, parse_codepoint"]}
{"id": "C27", "title": "Print then parse is the identity on values", "statement": "For every defined value v built from booleans, integers, strings, arrays and objects, parsing what v prints succeeds and gives a value equal to v.", "quantifier": "all values of any depth", "why_tests_cant": "all values", "anchors": ["lib/json/Value.cpp: print", "lib/json/Array.cpp: print", "lib/json/Object.cpp: print", "include/eni/json/Parser.h: parse_value"]}
{"id": "C28", "title": "Integers are exact up to 256 bits", "statement": "A decimal integer literal whose absolute value is below 2^256 is parsed to exactly that integer, larger literals are reduced modulo 2^256 in magnitude with the sign kept, and printing (to_string) yields the unique decimal form without leading zeros, which parses back to the same integer.", "quantifier": "all integer literals of any length", "why_tests_cant": "all integers", "anchors": ["include/eni/json/Callbacks.h: on_number", "include/eni/eni_types.h: s256", "lib/eni_types.cpp: to_string", "lib/json/Value.cpp: print"]}
{"id": "C29", "title": "Object members: last binding wins, nothing is lost", "statement": "After parsing an object text, looking up a key gives the value of the last member with that key, absent keys are reported as absent, and size() is the number of distinct keys (keys of at most 65535 bytes).", "quantifier": "all object texts", "why_tests_cant": "all numbers of members, all hash collisions and rehash points", "anchors": ["include/eni/json/Callbacks.h: set_parent, on_string", "include/eni/adt/StringMap.h: operator[], at, size"]}
{"id": "C30", "title": "Printing lists every element once, in order", "statement": "The printed form of an array is '[' e1,...,en ']' in index order; the printed form of an object is '{\\n' k1:v1,...,kn:vn '\\n}' with every bound key exactly once.", "quantifier": "all arrays and objects", "why_tests_cant": "all sizes", "anchors": ["lib/json/Array.cpp: print", "lib/json/Object.cpp: print"]}
{"id": "C31", "title": "Success flag and root agree", "statement": "If the Parser reports failure the root is undefined; if it reports success the root is a defined value and contains no undefined value anywhere.", "quantifier": "all byte strings", "why_tests_cant": "all inputs", "anchors": ["include/eni/json/Parser.h: Parser, operator bool, getRoot", "include/eni/json/Callbacks.h: getRoot, set_parent"]}
{"id": "C32", "title": "Whole input is consumed", "statement": "Parser reports success only if the whole input, up to surrounding white space, is one JSON value.", "quantifier": "all byte strings", "why_tests_cant": "needs inputs with trailing bytes", "anchors": ["include/eni/json/Parser.h: Parser"]}
{"id": "C33", "title": "Subscript on values", "statement": "v[key] on an object gives the bound value or throws OutOfRange; v[i] on an array gives element i or throws OutOfRange; on any other kind of value both give the undefined value.", "quantifier": "all values, keys and indices", "why_tests_cant": "all values", "anchors": ["lib/json/Value.cpp: operator[]"]}
{"id": "C34", "title": "Values never free memory twice", "statement": "For every sequence of constructions, copies, moves, copy-assignments and destructions of values, no storage is freed twice, freed while still referenced by another value, or read after being freed; delegating to a value that is already defined throws InvalidDelegateAssigned and changes nothing.", "quantifier": "all operation sequences over any number of values", "why_tests_cant": "all aliasing histories", "anchors": ["lib/json/Value.cpp: constructors, ~Value, operator=, delegate", "lib/json/Notation.cpp"]}
{"id": "C35", "title": "Unicode escapes denote their code point", "statement": "An escape \\\\uXXXX in a string is decoded to the UTF-8 encoding of code point XXXX.", "quantifier": "all code points", "why_tests_cant": "all code points above 0xff", "anchors": ["include/eni/json/Parser.h: parse_codepoint"]}
{"id": "C36", "title": "Argument parsing happens once", "statement": "For every sequence of getGas() and start() calls on one operation object, the operation's parse hook is invoked at most once and every call sees the same verdict (CHANGELOG 1.3.3).", "quantifier": "all operations, all call sequences", "why_tests_cant": "all call sequences", "anchors": ["include/eni/eni.h: EniBase::check, getGas, start"]}
{"id": "C37", "title": "Rejected arguments cost 1500 gas and produce no result", "statement": "If the operation rejects its arguments every getGas() returns 1500 and every start() returns null without running; if it accepts, getGas() returns the operation's own estimate and start() returns null only if run fails.", "quantifier": "all operations and arguments", "why_tests_cant": "all operations", "anchors": ["include/eni/eni.h: EniBase::getGas, start"]}
{"id": "C38", "title": "start() returns the complete result text", "statement": "If the returned values contain no object, the C string returned by start() is the whole printed array - it is never cut at an embedded NUL byte - and parses back to the returned values.", "quantifier": "all result arrays without objects", "why_tests_cant": "all result values", "anchors": ["include/eni/eni.h: EniBase::start", "lib/json/Value.cpp: print"]}
{"id": "C39", "title": "Every argument text has a defined outcome", "statement": "For every argument text, constructing the operation and calling getGas() either exits with status 87 (malformed JSON) or has defined behaviour.", "quantifier": "all argument texts", "why_tests_cant": "inputs that are valid JSON but not an array", "anchors": ["lib/eni.cpp: EniBase::EniBase", "include/eni/eni.h: EniBase::check"]}
{"id": "C40", "title": "Calling start() again gives the same answer", "statement": "A second start() on the same object returns the same text as the first.", "quantifier": "all operations whose run hook is deterministic", "why_tests_cant": "stateful accumulation across calls", "anchors": ["include/eni/eni.h: EniBase::start"]}
{"id": "C41", "title": "The C entry points are functions of the argument text", "statement": "OP_gas and OP_run of an operation with deterministic hooks return the same result for the same argument text (given the memory layout) regardless of earlier calls.", "quantifier": "all operations, argument texts and earlier calls", "why_tests_cant": "consensus.py samples a few repetitions", "anchors": ["include/eni/eni.h: ENI_GAS, ENI_RUN"]}
{"id": "C42", "title": "reverse reverses", "statement": "For every byte string s, reverse_run on the JSON text of [s] returns the JSON text of [reversed s], running it on its own output restores the text, and reverse_gas is 10 times the length.", "quantifier": "all byte strings", "why_tests_cant": "all strings", "anchors": ["examples/eni/reverse/eni_reverse.cpp"]}
{"id": "C43", "title": "scrypt input validation protects the buffer", "statement": "The scrypt operation accepts exactly hex strings of at most 160 digits; for every accepted string decoding writes only inside the 80-byte buffer and reads only inside the string.", "quantifier": "all strings", "why_tests_cant": "all lengths and characters", "anchors": ["tools/eni_scrypt/eni_scrypt.cpp: Scrypt::parse, run"]}
{"id": "C44", "title": "scrypt computes RFC 7914 scrypt", "statement": "For every 80-byte input the hash equals scrypt(P = input, S = input, N = 1024, r = 1, p = 1, dkLen = 32) as defined in RFC 7914.", "quantifier": "all 80-byte inputs, any SHA-256 implementation of the documented interface", "why_tests_cant": "all inputs", "anchors": ["tools/eni_scrypt/scrypt.cpp: scrypt_1024_1_1_256_sp_generic, xor_salsa8"]}
{"id": "C45", "title": "HMAC and PBKDF2 follow their RFCs", "statement": "HMAC_SHA256_Init/Update/Final compute RFC 2104 HMAC of the concatenated updates for every key length, and PBKDF2_SHA256 computes RFC 8018 PBKDF2 for every password, salt, iteration count >= 1 and output length up to 32*(2^32-1).", "quantifier": "all keys, messages, salts, counts, lengths", "why_tests_cant": "all inputs", "anchors": ["tools/eni_scrypt/scrypt.cpp: HMAC_SHA256_Init, HMAC_SHA256_Update, HMAC_SHA256_Final, PBKDF2_SHA256"]}
{"id": "C46", "title": "scrypt result depends only on the number denoted", "statement": "The scrypt result is unchanged by the case of hex digits and by prepending a '0' to an odd-length input; the output is 64 lowercase hex digits; gas is 10 per started byte and is the same before and after running.", "quantifier": "all accepted strings", "why_tests_cant": "all strings", "anchors": ["tools/eni_scrypt/eni_scrypt.cpp: Scrypt::parse, gas, run"]}
{"id": "C47", "title": "Hex conversion round trips", "statement": "hex2str(str2hex(s)) = s for every byte string, and str2hex(hex2str(h)) equals h up to letter case for every hex string h of even length; odd lengths are rejected.", "quantifier": "all byte strings / hex strings", "why_tests_cant": "all strings", "anchors": ["tools/eni_crypto/eni_crypto.cpp: str2hex, hex2str, hex2digit"]}
{"id": "C48", "title": "RSA decryption inverts encryption", "statement": "For every key pair and message, priv_decrypt(pub_encrypt(m)) = m (and pub_decrypt(priv_encrypt(m)) = m).", "quantifier": "all keys, all messages", "why_tests_cant": "all messages, in particular full-length ones and ones containing NUL", "anchors": ["tools/eni_crypto/eni_crypto.cpp: rsa::pub_encrypt, rsa::priv_decrypt, rsa::priv_encrypt, rsa::pub_decrypt"]}
{"id": "C49", "title": "parseArray and arrayGet return the direct elements", "statement": "Given the token list of any JSON array, arrayTokens selects exactly the direct elements in order; arrayGet(i) is the encoding of element i.", "quantifier": "all arrays of any nesting", "why_tests_cant": "all nestings", "anchors": ["examples/eni/json/eni_json.cpp: arrayTokens, parseArray, arrayGet"]}
{"id": "C50", "title": "objectGet returns the member or zeros", "statement": "Given the token list of any JSON object, objectGet(key) encodes the value token of the last member with that key, and returns sixteen zeros when the key is absent.", "quantifier": "all objects of any nesting, all keys", "why_tests_cant": "all nestings", "anchors": ["examples/eni/json/eni_json.cpp: objectTokens, objectGet"]}
{"id": "C51", "title": "Token encoding is lossless", "statement": "encodeToken always yields exactly 16 lowercase hex digits from which start and end (adjusted to include the quotes of strings) can be recovered.", "quantifier": "all token ranges", "why_tests_cant": "all ranges", "anchors": ["examples/eni/json/eni_json.cpp: encodeToken"]}
{"id": "C52", "title": "parseString only looks at the requested range", "statement": "parseString(data, begin, end) depends only on the bytes of data in [begin, end).", "quantifier": "all data and ranges", "why_tests_cant": "needs data with relevant bytes after end", "anchors": ["examples/eni/json/eni_json.cpp: JSON::parse, parseString"]}
{"id": "C53", "title": "Command line positional arguments", "statement": "Opt::parse succeeds iff there are exactly three positional arguments (words not starting with '-', plus all words after the first '--'), and then lib, op and params are these three in order.", "quantifier": "all argument vectors", "why_tests_cant": "all argument vectors", "anchors": ["tools/eni_cli/optParser.cpp: Opt::parse"]}
{"id": "C54", "title": "Command line tools: exit status and output", "statement": "eni_gas and eni_run print to standard output iff they exit with status 0; a bad command line exits with ExitParseError in both tools, a missing library with ExitLoadError, a missing symbol with ExitSymError and a null result with ExitRunError.", "quantifier": "all command lines and environments", "why_tests_cant": "all combinations of failures", "anchors": ["tools/eni_cli/eni_gas.cpp: main", "tools/eni_cli/eni_run.cpp: main", "tools/eni_cli/ceni.h"]}
{"id": "C55", "title": "Operations reject ill-typed arguments", "statement": "For every JSON array of arguments, parse of reverse, scrypt, rsa_encrypt, rsa_decrypt and json returns true or false; wrong types or missing arguments give false.", "quantifier": "all argument arrays", "why_tests_cant": "all argument shapes", "anchors": ["examples/eni/reverse/eni_reverse.cpp: parse", "tools/eni_scrypt/eni_scrypt.cpp: parse", "tools/eni_crypto/eni_crypto.cpp: RSAEncrypt::parse, RSADecrypt::parse", "examples/eni/json/eni_json.cpp: JSON::parse"]}
{"id": "C56", "title": "The consensus check is exact", "statement": "The repetition check of consensus.py reports success iff all n >= 2 runs had the same status, output and error output.", "quantifier": "all sequences of run results", "why_tests_cant": "all result sequences", "anchors": ["test/consensus/consensus.py: TestCase, repeat"]}
{"id": "C57", "title": "The scratchpad is large enough", "statement": "For every address of the scratchpad, the 64-byte aligned working area of 1024*32 words lies inside it and every access of scrypt stays inside the working area.", "quantifier": "all addresses, all inputs", "why_tests_cant": "all addresses and data-dependent indices", "anchors": ["tools/eni_scrypt/scrypt.cpp: scrypt_1024_1_1_256_sp_generic", "tools/eni_scrypt/scrypt.h: SCRYPT_SCRATCHPAD_SIZE"]}
{"id": "C58", "title": "Copies and assignments of StringMap", "statement": "A StringMap obtained by copy or move construction or by copy or move assignment answers every lookup like its source and can be used further on its own.", "quantifier": "all maps, all later histories", "why_tests_cant": "all histories; undefined behaviour of a missing return need not show in a test", "anchors": ["include/eni/adt/StringMap.h: StringMap(const StringMap&), StringMap(StringMap&&), operator="]}
{"id": "C59", "title": "Polynomial string hashes", "statement": "The SDBM, BKDR and DJB hash of a concatenation is determined by the hashes of the parts and the length of the second part; colliding keys still collide after appending a common suffix.", "quantifier": "all byte strings", "why_tests_cant": "all inputs", "anchors": ["include/eni/adt/StringHasher.h: StringHasher<SDBM>, StringHasher<BKDR>, StringHasher<DJB>"]}
{"id": "C60", "title": "Vector constructors report a refused allocation", "statement": "If the allocator refuses memory to a constructor of Vector, BadAlloc<NoMemory> is thrown; otherwise the new vector has the contents asked for.", "quantifier": "all constructors, all sizes and contents", "why_tests_cant": "allocation failure is not injected by tests", "anchors": ["include/eni/adt/bits/Vector.tcc: Vector(size_type), Vector(size_type, const_reference), Vector(const Vector&), Vector(initializer_list)"]}
{"id": "C61", "title": "Appending is amortised", "statement": "Appending n elements to a vector asks the allocator only O(log n) times; after reserve(n) appending up to n elements never asks it.", "quantifier": "all vectors, all element sequences", "why_tests_cant": "a cost over all lengths; the tests check contents only", "anchors": ["include/eni/adt/bits/Vector.tcc: push_back, reserve, capacity"]}
{"id": "C62", "title": "Printed values contain no control characters", "statement": "The printed form of a value contains no byte below 0x20, whatever bytes its strings contain, so that a result is one line of text.", "quantifier": "all values, all byte strings", "why_tests_cant": "the tests print a few strings; the byte values cannot be enumerated inside arbitrary values", "anchors": ["lib/json/Value.cpp: print", "lib/json/Array.cpp: print", "lib/json/Object.cpp: print"]}
{"id": "C63", "title": "Values release their storage", "statement": "After all values of a program have been destroyed, all storage that was allocated for them has been released.", "quantifier": "all operation sequences", "why_tests_cant": "leaks are not observed by the tests", "anchors": ["lib/json/Value.cpp: ~Value, operator=", "include/eni/adt/bits/Vector.tcc: ~Vector"]}
{"id": "C64", "title": "RSA operations are inverse to each other", "statement": "For every key pair and message, passing the result of rsa_encrypt_run to rsa_decrypt_run with the other key returns the message; the gas of both calls is ten for each byte of the modulus.", "quantifier": "all key pairs, all messages", "why_tests_cant": "the tests use one key", "anchors": ["tools/eni_crypto/eni_crypto.cpp: RSAEncrypt, RSADecrypt, rsa", "include/eni/eni.h: ENI_C_INTERFACE"]}
{"id": "C65", "title": "Strings in a JSON text can be located and read", "statement": "For every JSON text, the range that json_run arrayGet or objectGet returns for an element or member that is a string, passed on to json_run parseString, gives the value of that string.", "quantifier": "all texts, positions, indices and keys", "why_tests_cant": "all texts; the range of one call is the argument of the next", "anchors": ["examples/eni/json/eni_json.cpp: JSON::parse, arrayGet, objectGet, parseString, encodeToken"]}
{"id": "C66", "title": "The tools run an operation end to end", "statement": "eni_run LIB reverse PARAMS, for PARAMS the JSON text of [s], prints the JSON text of [reversed s] and a line feed and exits with status 0; eni_gas prints ten times the length of s.", "quantifier": "all byte strings, all ways to spread the three positional arguments over the command line", "why_tests_cant": "all strings and command lines; the option parser, the entry points, the JSON parser and printer and the operation are involved", "anchors": ["tools/eni_cli/eni_run.cpp: main", "tools/eni_cli/eni_gas.cpp: main", "include/eni/eni.h: ENI_C_INTERFACE", "examples/eni/reverse/eni_reverse.cpp"]}
{"id": "C67", "title": "The consensus script misses nothing", "statement": "consensus.py ends with status 0 iff more than one repetition was asked for and every test case has an operation and expandable arguments and all its executions had equal, readable results; in particular no skipped case and no single differing execution goes unnoticed.", "quantifier": "all test lists, repetition counts and results of executions", "why_tests_cant": "the script is itself the test", "anchors": ["test/consensus/consensus.py: TestResult, run_tests"]}
{"id": "C68", "title": "Generated parameters are what was asked for", "statement": "The parameters that consensus.py builds from generated strings and file contents are a JSON array of exactly these strings.", "quantifier": "all argument lists, all generated strings and file contents", "why_tests_cant": "file contents are arbitrary", "anchors": ["test/consensus/consensus.py: expand"]}
{"id": "C69", "title": "Iterators as arguments and results of Vector", "statement": "insert at an iterator makes the elements appear there and returns an iterator to the first of them in the changed vector; erase removes the elements of the range, for every range inside the vector including one that reaches end(), and returns an iterator to the element behind it. Iterators stay valid exactly while the capacity suffices.", "quantifier": "all vectors, iterators, counts and ranges", "why_tests_cant": "all positions; a stale iterator may seem to work in a test", "anchors": ["include/eni/adt/bits/Vector.tcc: insert(iterator, size_type, const_reference), insert(iterator, const_iterator, const_iterator), erase(iterator), erase(iterator, const_iterator)"]}
{"id": "C70", "title": "A vector can be given a range of itself", "statement": "assign(first, last) and insert(index, first, last) for iterators into the vector itself have the effect of first copying the range.", "quantifier": "all vectors, positions and ranges", "why_tests_cant": "needs every relation of range, position and capacity", "anchors": ["include/eni/adt/bits/Vector.tcc: assign(const_iterator, const_iterator), insert(size_type, const_iterator, const_iterator)"]}
{"id": "C71", "title": "emplace_back constructs the element in place", "statement": "emplace_back(args...) appends one element as push_back does and creates no object besides the element.", "quantifier": "all vectors, all element sequences", "why_tests_cant": "leaks are not observed by the tests", "anchors": ["include/eni/adt/bits/Vector.tcc: emplace_back"]}
{"id": "C72", "title": "A string hash tells apart strings that differ in one character", "statement": "For every string hash, two strings of the same length that differ in exactly one character have different hash values.", "quantifier": "all strings of any length, all positions, all pairs of characters", "why_tests_cant": "unbounded strings; the tests hash a few fixed strings", "anchors": ["include/eni/adt/StringHasher.h: StringHasher"]}
{"id": "C73", "title": "The ES signature has the documented layout", "statement": "The ES signature of a 7-bit string has the number of dots in its four high bits, bit 27 tells digits, bit 26 '-', and bit 25-k the k-th letter in either case.", "quantifier": "all 7-bit strings", "why_tests_cant": "unbounded strings, every bit of the result", "anchors": ["include/eni/adt/StringHasher.h: StringHasher"]}
{"id": "C74", "title": "Different values print differently", "statement": "Two JSON values that print the same text are the same value.", "quantifier": "all pairs of values of any nesting", "why_tests_cant": "unbounded pairs of values", "anchors": ["lib/json/Value.cpp: print", "lib/json/Object.cpp: print", "lib/json/Array.cpp: print"]}
{"id": "C75", "title": "Equal objects print the same text", "statement": "Two objects with the same members print the same text, whatever the order of insertion; nodes that build the same object must emit the same bytes.", "quantifier": "all objects, all insertion orders", "why_tests_cant": "needs all orders and all colliding keys", "anchors": ["lib/json/Object.cpp: print"]}
{"id": "C76", "title": "The stack needed for parsing is bounded", "statement": "There is a number of nested activations of the parser that is enough for every text.", "quantifier": "all texts, well-formed or not", "why_tests_cant": "a test cannot cover all nesting depths", "anchors": ["include/eni/json/Parser.h: parse_value, parse_array, parse_object"]}
{"id": "C77", "title": "The initial size of a table is only a hint", "statement": "Two tables constructed with different initial sizes report the same results for the same operations, and afterwards find the same keys with the same values.", "quantifier": "all initial sizes, all key types and hash functions, all histories of operations", "why_tests_cant": "tests use a few small sizes; the sizes that matter need gigabytes of memory", "anchors": ["include/eni/adt/bits/HashTable.tcc: HashTable", "include/eni/adt/bits/HashBase.tcc: compute_bucket_size, findKey, mayRehash"]}
{"id": "C78", "title": "A table grows as needed", "statement": "Inserting any number of distinct keys reports each of them as new, after that exactly these keys are found, and further searches and insertions return.", "quantifier": "all numbers of keys, all initial sizes, all key types and hash functions", "why_tests_cant": "the counters wrap only after more than a thousand million insertions", "anchors": ["include/eni/adt/bits/HashTable.tcc: insert", "include/eni/adt/bits/HashBase.tcc: mayRehash, compute_bucket_size"]}
{"id": "C79", "title": "Removal leaves iterators to other entries valid", "statement": "After removing a key, bound or not, an iterator to an entry with another key still designates that entry with unchanged contents, and is still what find returns for its key.", "quantifier": "all key types, hash functions, initial sizes, histories of operations, removed keys, iterators", "why_tests_cant": "whether a removal moves the other entries depends on the numbers of entries, removed entries and buckets the history has left", "anchors": ["include/eni/adt/bits/HashTable.tcc: erase, find", "include/eni/adt/bits/HashBase.tcc: mayRehash", "include/eni/adt/bits/HashIterator.tcc: EntryIterBase"]}
{"id": "C80", "title": "Removing while iterating", "statement": "A loop over the table that removes some of the entries it visits, whether it increments the iterator before or after the removal, visits every entry exactly once and leaves exactly the entries it did not remove.", "quantifier": "all key types, hash functions, initial sizes, histories of operations, all choices of entries to remove", "why_tests_cant": "all histories and all subsets of entries; the failure needs a table that was shrunk to fit before", "anchors": ["include/eni/adt/bits/HashTable.tcc: begin, end, erase", "include/eni/adt/bits/HashIterator.tcc: EntryIterBase::advance", "include/eni/adt/bits/HashBase.tcc: mayRehash"]}
{"id": "C81", "title": "Iterators of hash tables", "statement": "In a program with any number of tables, two iterators compare equal exactly if they stand for the same binding of the same table or are both at the end; find returns an iterator that designates the key and its value, or the end if the key is unbound; the loop from begin() to end() visits every binding exactly once, and each iterator it goes through is the one find returns for that key; using the end throws.", "quantifier": "all programs over any number of tables, all keys, key types and hash functions", "why_tests_cant": "all programs, all pairs of iterators", "anchors": ["include/eni/adt/bits/HashIterator.tcc: EntryIterBase", "include/eni/adt/bits/HashTable.tcc: find, begin, end"]}
{"id": "C82", "title": "Chain iteration visits the keys with the same hash value", "statement": "The loop from begin(k) to end(k) visits the entry of k first and then every other binding whose key has the same hash value, each exactly once; for an unbound key it visits nothing. Iterators begin(k) compare equal exactly if table and key are the same, and never to end(k).", "quantifier": "all programs over any number of tables, all keys, key types and hash functions", "why_tests_cant": "collisions of hash values, wrapping around the end of the array, and keys with hash value 0 are rare in tests", "anchors": ["include/eni/adt/bits/HashIterator.tcc: ChainIterBase", "include/eni/adt/bits/HashTable.tcc: begin, end"]}
{"id": "C83", "title": "A hash table survives a refused allocation", "statement": "When memory for the bucket array, for an entry or for a larger array cannot be obtained, the program keeps running and every operation still reports what the finite map reports, or reports the failure.", "quantifier": "all histories, all initial sizes, and all choices of the requests that are refused", "why_tests_cant": "tests run with enough memory; failures of single requests in single states are not reached", "anchors": ["include/eni/adt/bits/HashBase.tcc: init, lookupBucketFor, doRehash", "include/eni/adt/bits/HashTable.tcc: insert, HashTable"]}
{"id": "C84", "title": "Keys are stored inside the memory obtained", "statement": "Storing a key in a StringMap writes only inside the memory that was allocated for its entry, whatever the length of the key and the size and alignment of the values, and the key is read back unchanged.", "quantifier": "all keys, all sizes and alignments of the value type, all stores into the value", "why_tests_cant": "out-of-bounds accesses by a byte need not show; every residue of key length and padding matters", "anchors": ["include/eni/adt/StringHashTable.h: Entry, MallocAllocator, allocate"]}
{"id": "C85", "title": "A new key gets the default value", "statement": "m[k] for a key that is not bound binds it to the value V(), as for the standard maps, in particular to 0 for numbers.", "quantifier": "all value types, all histories, all keys", "why_tests_cant": "fresh memory happens to be zero in a test", "anchors": ["include/eni/adt/StringMap.h: operator[]", "include/eni/adt/StringHashTable.h: Entry"]}
{"id": "C86", "title": "Growing a table is amortised", "statement": "The number of entries that a history of n operations moves from one bucket array to another is at most proportional to n, whatever the initial size of the table; in particular a large initial size avoids moves.", "quantifier": "all histories, all initial sizes, all key types and hash functions", "why_tests_cant": "a cost over all lengths; the tests check contents only", "anchors": ["include/eni/adt/bits/HashBase.tcc: mayRehash, doRehash, compute_bucket_size", "include/eni/adt/bits/HashTable.tcc: insert, erase"]}
{"id": "C87", "title": "RSA functions and operations release what they acquire", "statement": "When a program has destroyed all its keys, and when an rsa_encrypt or rsa_decrypt object has been destroyed, nothing that was acquired on the way is held any more: no BIO, no buffer, no key; and nothing is released twice.", "quantifier": "all programs over any number of key variables, all key texts and messages, all sequences of calls on an operation object", "why_tests_cant": "leaks and double releases are not observed by the tests", "anchors": ["tools/eni_crypto/eni_crypto.cpp: create_pubkey, create_privkey, destroy, pub_encrypt, pub_decrypt, priv_encrypt, priv_decrypt, RSAEncrypt::parse, RSADecrypt::parse", "tools/eni_crypto/eni_crypto.h: ~RSAEncrypt, ~RSADecrypt"]}
{"id": "C88", "title": "The tools report what the operation decided", "statement": "For every operation and every third argument that begins with a JSON text: if the operation rejects the arguments, eni_run exits with 5 and prints nothing and eni_gas prints 1500; if it accepts them, eni_gas prints its gas and eni_run prints its results as one JSON text and a line feed, or exits with 5 if it fails. An argument that is not JSON makes both exit with 87 and print nothing.", "quantifier": "all operations, all command lines, all texts", "why_tests_cant": "all operations and texts; the option parser, the loader, the entry points, the JSON parser and printer are involved", "anchors": ["tools/eni_cli/eni_run.cpp: main", "tools/eni_cli/eni_gas.cpp: main", "include/eni/eni.h: ENI_C_INTERFACE, EniBase", "lib/eni.cpp: EniBase"]}
{"id": "C89", "title": "The tools run scrypt, RSA and json end to end", "statement": "eni_run with scrypt prints the hash of the bytes denoted by its argument; what eni_run prints for rsa_encrypt, given to rsa_decrypt with the other key, makes it print the message; the range that eni_run prints for json arrayGet, given to parseString, makes it print the string. eni_gas prints the gas of each call.", "quantifier": "all arguments, key pairs, messages, texts, indices and command lines", "why_tests_cant": "all inputs; the output of one process is the argument of the next", "anchors": ["tools/eni_cli/eni_run.cpp: main", "tools/eni_cli/eni_gas.cpp: main", "tools/eni_scrypt/eni_scrypt.cpp: Scrypt", "tools/eni_crypto/eni_crypto.cpp: RSAEncrypt, RSADecrypt", "examples/eni/json/eni_json.cpp: JSON"]}
{"id": "C90", "title": "Parsing JSON is safe in memory", "statement": "Whatever the text, parsing it and destroying the parser access no memory that has been released or was never initialised, and release nothing twice; when the parser accepts, the root is the value that the text denotes: elements by index, each member the last one of its name.", "quantifier": "all texts, accepted or not, and all choices of when the stack of open values is moved to a larger block", "why_tests_cant": "all texts, all nesting depths; lifetimes of temporaries, parameters and stack elements are invisible to tests that compare values", "anchors": ["include/eni/json/Callbacks.h: Callbacks", "include/eni/json/Parser.h: Parser", "include/eni/json/Value.h: Value"]}
{"id": "C91", "title": "Parsing and destroying leaves nothing behind", "statement": "After an operation object has been constructed from an argument text and destroyed, no heap object allocated for the arguments is still allocated.", "quantifier": "all argument texts that are accepted", "why_tests_cant": "tests do not count allocations", "anchors": ["include/eni/json/Callbacks.h: set_parent, on_number, end_array, end_object", "include/eni/json/Value.h: ~Value, operator=", "lib/eni.cpp: EniBase"]}
{"id": "C92", "title": "Memory for arguments is proportional to the text", "statement": "The number of heap objects that parsing an argument text allocates is at most proportional to the length of the text.", "quantifier": "all texts", "why_tests_cant": "a rate over all lengths and nesting depths", "anchors": ["include/eni/json/Callbacks.h: begin_array, end_array, set_parent", "lib/eni.cpp: EniBase"]}
{"id": "C93", "title": "Entry points are safe in memory", "statement": "For every operation and every argument text that denotes an array, OP_run and OP_gas access no memory that has been released or was never initialised and release nothing twice; OP_run returns the JSON text of the results that the hooks compute from the value the text denotes, or the null pointer if a hook refuses, or the exception a hook throws; OP_gas returns the gas or the exception.", "quantifier": "all operations that read their arguments through the const interface of Value, all texts, all choices of when the stack of the parser is moved", "why_tests_cant": "all operations and texts; lifetimes inside the argument value, the result array and the parser are invisible to tests that compare results", "anchors": ["include/eni/eni.h: ENI_GAS, ENI_RUN, EniBase", "lib/eni.cpp: EniBase", "include/eni/adt/bits/Vector.tcc: emplace_back"]}
{"id": "C94", "title": "A call leaves nothing behind but its result", "statement": "After a call of OP_run or OP_gas has returned or thrown, the only memory still allocated is what was handed to the caller.", "quantifier": "all operations that read their arguments through the const interface of Value, all texts that denote arrays", "why_tests_cant": "tests do not count allocations", "anchors": ["include/eni/eni.h: ENI_GAS, ENI_RUN, EniBase", "include/eni/adt/bits/Vector.tcc: emplace_back, ~Vector", "lib/json/Value.cpp: ~Value"]}
{"id": "C95", "title": "Calls in one process do not influence each other", "statement": "Whatever sequence of OP_run and OP_gas calls a process makes, of whatever operations and with whatever argument texts, every call gives what the same call gives in a process of its own.", "quantifier": "all sequences of calls, all operations that read their arguments through the const interface of Value, all texts", "why_tests_cant": "interference through memory left behind by earlier calls shows only in particular sequences; tests run few of them", "anchors": ["include/eni/eni.h: ENI_GAS, ENI_RUN, EniBase", "lib/eni.cpp: EniBase"]}
{"id": "C96", "title": "A process can make any number of calls", "statement": "If the caller releases everything it is given, the memory in use after n calls does not grow with n.", "quantifier": "all sequences of calls of any length", "why_tests_cant": "tests do not count allocations and make few calls", "anchors": ["include/eni/eni.h: ENI_GAS, ENI_RUN, EniBase", "include/eni/adt/bits/Vector.tcc: emplace_back", "lib/json/Value.cpp: ~Value"]}
{"id": "C97", "title": "Scanning takes time proportional to the text", "statement": "Scanning a JSON text returns after a number of steps that is at most proportional to the length of the text, whether it is accepted or not; an error near the start costs no more than what precedes it.", "quantifier": "all texts, of any length, nesting and validity", "why_tests_cant": "a rate over all inputs, against adversarial texts; backtracking between alternatives is where scanners become quadratic", "anchors": ["include/eni/json/Parser.h: all parse_* and have, expect, skip_ws"]}
{"id": "C98", "title": "Bucket arrays are released exactly once", "statement": "In a program with any number of hash tables that are created, copied, moved, assigned, changed and destroyed, no bucket array is accessed after its release or released twice, two tables never share one, and when all tables are destroyed none is left.", "quantifier": "all programs with any number of tables, all key types and hash functions, all sizes", "why_tests_cant": "depends on the order of copies, moves, growth and destruction over whole programs; a leak has no visible effect in a test", "anchors": ["include/eni/adt/bits/HashBase.tcc: TableImpl constructors, operator=, init, clear, doRehash", "include/eni/adt/bits/HashTable.tcc: operator=, clear, ~HashTable", "include/eni/adt/HashBase.h: ~TableImpl"]}
{"id": "C99", "title": "The shipped operations do in memory what they do on plain data", "statement": "Whatever calls a process made before and whatever the argument text is, a call of reverse, scrypt, rsa_encrypt, rsa_decrypt or json (run or gas) that parses its arguments into heap objects, reads them through pointers, stores its result with emplace_back and prints it has exactly the outcome of the operation on plain data: same text, null pointer, gas, exception, exit status or undefined behaviour.", "quantifier": "all operations shipped, all texts of up to 1073643498 bytes whose keys have at most 65535 bytes, all earlier calls", "why_tests_cant": "aliasing between arguments, results and what earlier calls left shows only for particular texts and sequences of calls", "anchors": ["include/eni/eni.h: ENI_GAS, ENI_RUN, EniBase", "examples/eni/reverse/eni_reverse.cpp: Reverse", "tools/eni_scrypt/eni_scrypt.cpp: Scrypt", "tools/eni_crypto/eni_crypto.cpp: RSAEncrypt, RSADecrypt", "examples/eni/json/eni_json.cpp: JSON"]}
{"id": "C100", "title": "allocate(n) provides room for n objects", "statement": "For every object type and every n, memory granted by the library's allocator for n objects has room for n objects: a program that constructs, reads, destroys and gives back within the arrays it was granted has defined behaviour, reads what it wrote, different arrays do not interfere, and no memory stays behind once every array is given back. A request that is refused yields the null pointer.", "quantifier": "every object type, every number of objects, every program over any number of arrays", "why_tests_cant": "A test allocates a few objects; the requests whose size in bytes wraps around, and all interleavings of arrays, are not reached.", "anchors": ["include/eni/support/MallocAllocator.h:MallocAllocator", "include/eni/adt/StringHashTable.h:MallocAllocator<internal::Entry<std::string, ValueType> >"]}
{"id": "C101", "title": "Hashing a string comes to an end", "statement": "Each of the string hash functions returns a value for every string, and the value is the documented function of the bytes.", "quantifier": "every one of the twelve hash functions, every string of any length", "why_tests_cant": "The failing strings have four gigabytes or more; a test that hashed one would not end.", "anchors": ["include/eni/adt/StringHasher.h:StringHasher"]}
{"id": "C102", "title": "The price of an operation bounds the size of its result", "statement": "For each shipped operation and every argument text: if OP_run returns a text, OP_gas returns a price for the same argument text, and the length of the result is at most the price plus 4 (scrypt: plus 68, its result always has 68 characters). A caller that pays for gas knows how large the answer can be before it asks for it.", "quantifier": "all five operations, all argument texts, all keys and tokenizers", "why_tests_cant": "a relation between two entry points for all texts; escapes multiply the size of a character by six", "anchors": ["examples/eni/reverse/eni_reverse.cpp: Reverse", "examples/eni/json/eni_json.cpp: JSON", "tools/eni_crypto/eni_crypto.cpp: RSAEncrypt, RSADecrypt", "tools/eni_scrypt/eni_scrypt.cpp: Scrypt", "include/eni/eni.h: ENI_GAS, ENI_RUN"]}
{"id": "C103", "title": "The price of an operation covers the argument text", "statement": "For each shipped operation there are constants such that the price is at least proportional to the length of the argument text and to the memory a call leaves behind: work cannot be had for nothing.", "quantifier": "all operations, all argument texts", "why_tests_cant": "a rate over all lengths; the texts that are free of charge have arguments no test passes", "anchors": ["examples/eni/reverse/eni_reverse.cpp: Reverse::gas", "examples/eni/json/eni_json.cpp: JSON::gas", "tools/eni_crypto/eni_crypto.cpp: RSAEncrypt::gas", "tools/eni_scrypt/eni_scrypt.cpp: Scrypt::gas", "include/eni/eni.h: EniBase"]}
{"id": "C104", "title": "Every call of the json operation has a defined outcome", "statement": "Whatever the data, the range, the index and the key: parseString, parseArray, arrayGet and objectGet return a text, refuse or throw, also for data that is not JSON.", "quantifier": "all data, ranges, indices and keys, all token lists the tokenizer may deliver", "why_tests_cant": "all byte sequences; undefined behaviour need not show in a test", "anchors": ["examples/eni/json/eni_json.cpp: parseString, arrayTokens, parseArray, arrayGet, objectTokens, objectGet, JSON::parse"]}
{"id": "C105", "title": "A vector of objects constructs and destroys its elements", "statement": "For an element type with constructors, destructor and assignment operator (a string, a JSON value) every element of an eni::Vector is a constructed object, assignment is applied to constructed objects only, and every object copied into the vector is released by the end of the life of the vector.", "quantifier": "all element types, all values, all histories of calls, all sizes", "why_tests_cant": "assignment to indeterminate bytes often works by accident; all histories", "anchors": ["include/eni/adt/bits/Vector.tcc: Vector, ~Vector, reserve, resize, push_back, emplace_back, pop_back, insert, erase, assign, clear", "lib/json/Value.cpp: operator="]}
{"id": "C106", "title": "Printing is defined for values of any size", "statement": "Printing a value of any size has defined behaviour and produces its text.", "quantifier": "all values, arrays of any number of elements", "why_tests_cant": "needs arrays of 2^31 elements (about 50 GB)", "anchors": ["lib/json/Array.cpp: print", "lib/json/Object.cpp: print", "lib/json/Value.cpp: print"]}
{"id": "C107", "title": "Storing the members of an object takes work proportional to the text", "statement": "Parsing a text looks at a number of hash buckets that is at most proportional to the length of the text, whatever the names of the members: nobody can choose names that make the parser slow.", "quantifier": "all texts, all memory layouts", "why_tests_cant": "all texts; a test with ordinary names shows linear behaviour", "anchors": ["include/eni/adt/bits/HashBase.tcc: lookupBucketFor", "include/eni/adt/StringHasher.h: StringHasher<SDBM>", "include/eni/adt/StringMap.h: operator[]", "lib/json/Callbacks.h: set_parent"]}
{"id": "C108", "title": "The documented prices", "statement": "The tools print what the documentation of the shipped operations says: the price of reverse is the length of the string, of scrypt the number of hexadecimal digits, of rsa_encrypt the length of the message, of rsa_decrypt the size of the key; eni_run reverse prints the reversed string.", "quantifier": "all strings, keys and messages, all command lines", "why_tests_cant": "The documentation shows one call per operation; whether the rule behind it is the rule of the program is a statement about all arguments.", "anchors": ["docs/testing-prebuilt-eni-operations.rst: 18-59", "docs/guides/implement-eni-operations.rst: Estimate Gas Consumption", "examples/eni/reverse/eni_reverse.cpp: Reverse::gas", "tools/eni_scrypt/eni_scrypt.cpp: Scrypt::gas", "tools/eni_crypto/eni_crypto.cpp: RSAEncrypt::gas, RSADecrypt::gas"]}
{"id": "C109", "title": "to_string gives the JSON text of a number or truth value", "statement": "For every ENI type, eni::to_string returns the decimal numeral of the value (true or false for Bool), without superfluous zeros, different for different values, and the JSON parser of the library reads it as the same value. Integers outside the range of an unsigned type are taken modulo 2^width.", "quantifier": "all values of u64, u128, u160, u256, s256 and Bool, any text that follows", "why_tests_cant": "the types have up to 2^257 values; tests use five of them", "anchors": ["include/eni/eni_types.h: u64, u128, u160, u256, s256, Bool, to_string", "lib/eni_types.cpp: to_string", "docs/types.rst: Convert ENI Types to C++ String"]}
{"id": "C110", "title": "The entry points report a lack of memory", "statement": "When the system refuses the memory for the result of OP_gas or OP_run, the caller is told so: the call is defined and its outcome is different from that of a rejected argument.", "quantifier": "all operations, all argument texts, all command lines", "why_tests_cant": "memory is not refused in tests", "anchors": ["include/eni/eni.h: ENI_GAS, ENI_RUN, EniBase::start", "tools/eni_gas/eni_gas.cpp: main", "tools/eni_run/eni_run.cpp: main"]}
{"id": "C111", "title": "Arguments arrive as they were passed", "statement": "All arguments of an ENI call are listed in the array given to the operation in the original order, keeping their type: pArgs[i].toTYPE() is the i-th argument, and an index behind the last argument throws.", "quantifier": "all lists of strings, integers, truth values and arrays, all texts of such a list, all operations", "why_tests_cant": "all lists and all spellings; the type of a value is not checked by the accessors", "anchors": ["docs/guides/parsing-eni-arguments.rst", "include/eni/eni.h: EniBase::check", "lib/eni.cpp: EniBase", "include/eni/json/Value.h: toBoolean, toInteger, toString, toArray", "include/eni/json/Array.h: operator[]"]}
{"id": "C112", "title": "Printing reads valid memory and shows the value", "statement": "print on any value that a program can reach - made by the parser or by constructors, copies, moves, assignments, push_back and operator[] - dereferences only live storage of the right type and writes a text of that value: elements in order, every member of an object exactly once. For values without members the text is unique and parses to the value.", "quantifier": "all programs over any number of values that avoid the aliasing situations of C34, all values inside them, all accepted texts, all orders of the members of an object", "why_tests_cant": "all programs and all nested values; use of released storage often prints the expected text", "anchors": ["lib/json/Value.cpp: print", "lib/json/Array.cpp: print", "lib/json/Object.cpp: print"]}
{"id": "C113", "title": "Results do not depend on whether plain char is signed", "statement": "A program built where plain char is signed (x86) and the same program built where it is unsigned (ARM, POWER) compute the same: the same texts are accepted, every value read has the same elements and members, values print the same text, the string hash functions return the same numbers, and every operation has the same price and the same result for the same arguments.", "quantifier": "all texts, all strings, all shipped operations and all operations that do not depend on the order of members", "why_tests_cant": "tests run on one machine; the difference only shows for bytes from 128 on", "anchors": ["include/eni/adt/StringHasher.h", "include/eni/adt/StringMap.h", "include/eni/json/Parser.h", "lib/json/Value.cpp: print", "tools/eni_crypto/eni_crypto.cpp: hex2str", "tools/eni_scrypt/eni_scrypt.cpp: run"]}
{"id": "C114", "title": "A rejected text is reported in every program", "statement": "Declaring a json::Parser for a text that is not accepted gives an object that converts to false, in every program: however many of its translation units include the parser, whatever calls of its inline functions the compilers expand, and whichever definitions the linker chooses. No exception leaves the constructor.", "quantifier": "all texts, all memory layouts, all programs of any number of parts, all choices of compilers and linkers", "why_tests_cant": "A test is one program with one build; the exception class is a different one in every translation unit, and it depends on inlining and on the order of libraries whether thrower and handler agree", "anchors": ["include/eni/json/Parser.h: ParserError, Parser::Parser, Parser::parse_error", "lib/eni.cpp: EniBase::EniBase", "examples/eni/json/eni_json.cpp: parseString", "CMakeLists.txt: add_library"]}
{"id": "C115", "title": "A vector survives an element that cannot be copied", "statement": "If copying an element throws during a call on a Vector, the exception reaches the caller and the vector still is a sequence of proper elements: those it had, values given to it, or default values. If push_back, emplace_back, resize or pop_back fails in this way, the vector has the elements it had before the call.", "quantifier": "all element types whose failed copies leave their target alone, all histories of calls, all choices of the copies that fail (any number of them)", "why_tests_cant": "Whether a copy fails depends on the memory that is left; a test would have to let each single copy of each call fail in every state of the vector, and a wrongly exposed cell often looks like an old element", "anchors": ["include/eni/adt/bits/Vector.tcc: Vector::push_back, Vector::emplace_back, Vector::pop_back, Vector::insert, Vector::erase, Vector::resize, Vector::assign"]}
{"id": "C116", "title": "A table survives an entry that cannot be made", "statement": "If constructing an entry throws during a call on a HashTable, the exception reaches the caller and the table still maps the keys it had to the values they had: searching, inserting, erasing, counting and iterating go on working, however often this happens. A table that is the target of a failed copy assignment can still be destroyed, and the source of a failed copy keeps its bindings.", "quantifier": "all key and value types, all hash functions, all histories of calls, all choices of the insertions whose entry cannot be made", "why_tests_cant": "Whether a constructor throws depends on the state of the program at that moment; the damage (a counter that is too low) does not show at the failing call but only many operations later, and only for some sequences of removals and insertions", "anchors": ["include/eni/adt/bits/HashTable.tcc: HashTable::insert, HashTable::operator=, HashTable::HashTable(const HashTable&), HashTable::count", "include/eni/adt/bits/HashBase.tcc: TableImpl::lookupBucketFor, TableImpl::mayRehash", "include/eni/adt/bits/HashIterator.tcc: ChainIterBase"]}
{"id": "C117", "title": "Exceptions reach the handler for their kind and tell what happened", "statement": "An exception thrown by the containers or by json values is taken by the first handler for its documented kind (std::out_of_range for a bad index or an absent key, std::length_error for a size that is too large, std::bad_alloc for lack of memory, std::logic_error for the rest) or for a base of that kind, and what() returns the text that belongs to the cause, whether the handler takes it by reference or by value; an exception leaves a try block only if none of its handlers is for its kind. The texts of different causes differ. Handlers for std::out_of_range and std::bad_alloc suffice for everything a Vector can do.", "quantifier": "all exceptions of the library, all lists of handlers (by reference, by value, catch-all, any class), all operations on vectors and all histories of string maps", "why_tests_cant": "A test writes one handler for one failing call; that no combination of handlers, classes and ways of passing loses the exception or its text is a statement about the class hierarchy as a whole, and reading an uninitialised member usually goes unnoticed", "anchors": ["include/eni/diagnostic/Exception.h: Exception, ExceptionBase", "include/eni/diagnostic/DiagList.inc", "include/eni/adt/bits/Vector.tcc: Vector::at, Vector::reserve", "include/eni/adt/StringMap.h: StringMap::at"]}
{"id": "C118", "title": "The library can be used before and after main", "statement": "Static objects of a program may use the library in their constructors and destructors: the texts of exceptions and the result of looking up a key in a json value that is no object are the same as in main.", "quantifier": "all programs, all orders in which their static objects are initialised", "why_tests_cant": "The order is chosen by the linker; a test program has one order, and in most orders the zeroed memory of an object not yet constructed looks like an empty string", "anchors": ["lib/diagnostic/Exception.cpp: ExceptionBase<ID>::ErrStr", "lib/json/Value.cpp: g_NullValue, Value::operator[]", "include/eni/diagnostic/Exception.h: Exception::what"]}
{"id": "C119", "title": "A ciphertext with something behind it is rejected", "statement": "rsa::pub_decrypt and rsa::priv_decrypt return false for every message that is longer than the modulus of the key; a ciphertext with further bytes appended to it never decrypts to the message.", "quantifier": "all keys, all messages of any length", "why_tests_cant": "The length is converted from size_t to int; the messages for which this matters have 4 GiB and more", "anchors": ["tools/eni_crypto/eni_crypto.cpp: rsa::pub_decrypt, rsa::priv_decrypt"]}
{"id": "C120", "title": "A value made from a C++ object is the JSON value of that object", "statement": "If json::Value(x) (or emplace_back(x) on an array) compiles, then x has a JSON counterpart - it is a truth value, an integer, text or a json object - and the value made is this counterpart: the same truth value, the same number, the same characters. Anything else, such as a pointer or an enumerator, is not accepted.", "quantifier": "all argument types (integers, floating-point numbers, enumerations, pointers, arrays, strings, ENI numbers, json objects), all their values", "why_tests_cant": "Which constructor is called is decided by the compiler for each type of argument; a test has a few types", "anchors": ["include/eni/json/Value.h: constructors of Value", "lib/json/Value.cpp: g_NullValue, constructors of Value"]}
{"id": "C121", "title": "An index outside is rejected, whatever its type", "statement": "v[i] on a json array gives element i if there is one and throws OutOfRange otherwise, for an index of every integer type; the same holds for at(i) of a vector.", "quantifier": "all arrays, all integer types, all their values", "why_tests_cant": "The index is converted to the type of the parameter; the values that this changes have more than 32 bits", "anchors": ["include/eni/json/Array.h: Array::operator[]", "lib/json/Value.cpp: Value::operator[]", "include/eni/adt/bits/Vector.tcc: at"]}
{"id": "C122", "title": "Printing appends the text of the value to any stream", "statement": "v.print(os) appends the JSON text of v to the stream, whatever was written to the stream and whatever formatting was set on it before, and leaves the formatting as it was.", "quantifier": "all values, all output streams in a good state (number base, signs, width, fill character, adjustment)", "why_tests_cant": "The state of the stream is an input that unit tests leave at its default", "anchors": ["lib/json/Value.cpp: Value::print", "lib/json/Array.cpp: Array::print", "lib/json/Object.cpp: Object::print"]}
{"id": "C123", "title": "A hash function that does not keep its answers does no harm", "statement": "If the hash function of a hash table gives different values for the same key at different times, or if the key of a stored entry is overwritten through the entry, every operation still ends normally, touches only live entries, and behaves like a finite map on pairs of a key and its hash value at the time of the call; entries that can no longer be found are counted, visited by iteration, and released with the table.", "quantifier": "all key and value types, all histories of operations, a different arbitrary hash function in every call, all overwritten keys (the new key not yet bound under the same hash value)", "why_tests_cant": "The number of hash functions and of their changes is unbounded; tests use one deterministic hasher", "anchors": ["include/eni/adt/bits/HashBase.tcc: lookupBucketFor, findKey, doRehash", "include/eni/adt/bits/HashTable.tcc: insert, erase, find", "include/eni/adt/HashBase.h: Entry::key"]}
{"id": "C124", "title": "The price of scrypt covers its work", "statement": "The gas asked for a call of the scrypt operation is in proportion to the work of the call: calls that do the same number of Salsa20/8 steps, feed the same number of bytes to SHA-256 and make the same number of accesses to the scratchpad cost the same, and a call that does work is not free.", "quantifier": "for every accepted argument, every implementation of SHA-256, every content and address of the buffers", "why_tests_cant": "The work of a call is not part of its result, so a test cannot see it; that it is the same for every accepted argument is a statement about about 16^160 arguments", "anchors": ["tools/eni_scrypt/eni_scrypt.cpp: Scrypt::gas, Scrypt::run", "tools/eni_scrypt/scrypt.cpp: scrypt_1024_1_1_256_sp_generic, PBKDF2_SHA256, HMAC_SHA256_Init, HMAC_SHA256_Update, HMAC_SHA256_Final, xor_salsa8"]}
{"id": "C125", "title": "Arrays and objects inside values can be assigned, resized and emptied", "statement": "In a program on JSON values that, besides constructing, copying, moving, assigning and destroying values, also assigns the array or object of one value to that of another, resizes arrays and empties them, every variable holds in the end the tree that plain trees would give; nothing is shared between values, and no step is undefined behaviour. This includes assignments where source and target are the same or one is a part of the other.", "quantifier": "for every program of any length over any number of values of any shape, every source and target", "why_tests_cant": "The effect depends on how source and target are nested and on what the other values share with them; tests cover some shapes only", "anchors": ["lib/json/Array.cpp: Array::operator=", "lib/json/Object.cpp: Object::operator=", "include/eni/adt/bits/Vector.tcc: Vector::operator=, assign, resize, clear", "lib/json/Value.cpp: Value::operator=", "include/eni/adt/StringMap.h: StringMap::operator="]}
{"id": "C126", "title": "The kind of a value describes its contents", "statement": "Whatever a program does with JSON values through the public members of their class and of its public base class, the kind that type() and the is...() functions report is the kind of what the value holds; so a value can always be copied, printed and destroyed, and no two values own the same storage.", "quantifier": "for every program of any length over any number of values of any shape, including assignments and moves through references to the base class, between any two values", "why_tests_cant": "The wrong kind shows only when the value is used later; programs and the ways in which values were moved before are unbounded", "anchors": ["include/eni/json/Notation.h: Notation", "lib/json/Notation.cpp: Notation::Notation(Notation&&), Notation::operator=", "include/eni/json/Value.h: class Value : public Notation", "lib/json/Value.cpp: Value::Value, Value::~Value, Value::operator="]}
{"id": "C127", "title": "Capacity and failures of a vector are determined by its history", "statement": "A call on a vector fails for lack of memory exactly if it asks for room for more elements than capacity() and the allocator refuses; it then changes nothing. capacity() is the largest number of elements that room was asked for since the vector was made or cleared, and the memory the vector owns is at least that and less than twice that.", "quantifier": "for every history of any length of all operations on two vectors, every element size, every sequence of answers of the allocator, as long as the byte counts stay within 64 bits", "why_tests_cant": "Histories and refusals are unbounded; a capacity that is too large or too small by one shows only in a later call that writes past the memory or fails without need", "anchors": ["include/eni/adt/bits/Vector.tcc: Vector::reserve, Vector::resize, Vector::push_back, Vector::insert, Vector::assign, Vector::operator=, Vector::clear, Vector::swap, Vector::capacity"]}
{"id": "C128", "title": "The report of the consensus script shows what was observed", "statement": "For every case the consensus script prints the common status and outputs if all runs agree, and otherwise the first observation marked as expected and the earliest one that differs marked as got; if two observations differ, their reports differ, so that the reader sees the difference.", "quantifier": "for every number of runs and all statuses and outputs of any length", "why_tests_cant": "Outputs are arbitrary texts; differences that the report hides are by their nature not noticed", "anchors": ["test/consensus/consensus.py: TestCase.caseprint, TestCase.finish_one, TestCase.summarize, repeat"]}
{"id": "C129", "title": "The price of an RSA operation covers its work", "statement": "Two calls of rsa_encrypt or rsa_decrypt that cost the same take about the same number of multiplications modulo the key's modulus, whatever the exponents in the key; there is a constant number of gas units per multiplication and per unit of work.", "quantifier": "for all keys of any size, all messages and all methods of computing a power by multiplications", "why_tests_cant": "Keys are chosen by the caller, of any size and with any exponent; a slow key is not among the test keys, and tests see one method only", "anchors": ["tools/eni_crypto/eni_crypto.cpp: RSAEncrypt::gas, RSADecrypt::gas, rsa::pub_encrypt, rsa::priv_decrypt"]}
{"id": "C130", "title": "The diagnostic text of a value is determined by the value", "statement": "printValue writes a text that depends only on the kind and the contents of the value: equal values print alike, in the same program and on every node.", "quantifier": "for all programs that create, copy, move, assign and delegate values, and all addresses that memory allocation returns", "why_tests_cant": "A test sees the addresses of one run on one machine, and few of the ways in which a variable comes by its value", "anchors": ["lib/json/Value.cpp: Value::printValue, Value::operator=, Value::Value, Value::delegate", "include/eni/json/Value.h: Value::Holder"]}
{"id": "C131", "title": "Whoever is told a price gets a result", "statement": "If OP_gas returns a price for some arguments, that is, another number than the one for rejected arguments, then OP_run returns a result text for the same arguments; and the number for rejected arguments is never a price.", "quantifier": "for every shipped operation and all argument texts", "why_tests_cant": "Arguments that pass the checks behind the price and fail in the computation are rare and depend on the key; tests use keys and messages that work", "anchors": ["include/eni/eni.h: EniBase::getGas, EniBase::start", "tools/eni_crypto/eni_crypto.cpp: RSAEncrypt, RSADecrypt", "examples/eni/reverse/eni_reverse.cpp", "tools/eni_scrypt/eni_scrypt.cpp", "examples/eni/json/eni_json.cpp"]}
{"id": "C132", "title": "The project's consensus test exercises the operations it lists", "statement": "When the consensus test is run with the list of tests of the project, every operation named in the list (reverse, rsa_encrypt, rsa_decrypt, scrypt) is accepted and prints a result at least once, so that executions with different results can be noticed.", "quantifier": "all random texts the script may draw, all builds, all implementations of the operations' dependencies", "why_tests_cant": "the list is itself the test and its arguments are random; a success of the test does not show what was executed", "anchors": ["test/consensus/tests.json.in", "test/consensus/consensus.py: expand, run_tests", "tools/eni_scrypt/eni_scrypt.cpp: Scrypt::parse"]}
{"id": "C133", "title": "A passing regression test means the command did as expected", "statement": "A regression test of test/*.sh passes iff every command it checks wrote exactly the expected text as a line to its standard output, wrote nothing to the other stream and ended with status 0; a script stops at the first check that fails.", "quantifier": "all commands, whatever they write to both streams and however they end; all scripts of checks", "why_tests_cant": "the shell library is what the tests are judged by; a test cannot show what it lets pass", "anchors": ["test/testlib.sh: t_run, o_expect, p_expect"]}
{"id": "C134", "title": "Arguments in the description of a consensus test", "statement": "In the description file of consensus.py an argument s:n or h:n stands for a random text of exactly n characters and f:path for a file; an argument of any other form is reported as an error and the script ends with a status other than 0.", "quantifier": "all arguments, all random choices, all files, all lists of cases", "why_tests_cant": "The project has one malformed description; which texts are accepted, and what a slightly wrong one is taken for, is a statement about all texts.", "anchors": ["test/consensus/consensus.py: expand, run_tests", "docs/tools/consensus.rst: 44-72", "test/consensus/malformed.json.in"]}
{"id": "C135", "title": "Texts written by Python's json.dumps", "statement": "An argument list that a client writes with Python's json.dumps reaches the operation unchanged: strings as their UTF-8 bytes, integers and booleans as their values; different strings stay different.", "quantifier": "all lists of strings, integers and booleans", "why_tests_cant": "The JSON tests of the project send ASCII strings and small integers; the escapes that json.dumps uses for everything else concern all characters.", "anchors": ["test/jsontests/__init__.py: eni_xx", "include/eni/json/Parser.h", "examples/eni/reverse/eni_reverse.cpp"]}
{"id": "C136", "title": "The assertions of the JSON tests", "statement": "assertRange and assertRanges of the JSON tests pass exactly if the operation returned the expected positions and nothing else.", "quantifier": "all results of the operation, all expected positions", "why_tests_cant": "The assertions are the tests; which wrong results they let through is a statement about all results.", "anchors": ["test/jsontests/__init__.py: u32hex2int, assertRange, assertRanges", "examples/eni/json/eni_json.cpp: encodeToken"]}
