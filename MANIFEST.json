{
 "claims": [
  {
   "property": "C01",
   "status": "proved",
   "theorems": [
    "Eni.Props.C01_finite_map",
    "Eni.Props.C01_limits"
   ],
   "note": "All key types, hash functions, histories; limits: initial size <= 1431524664, at most 1073643498 entries, rehash(n) with entries < n < 1431655766. C01_limits: histories of at most 1073643498 operations without rehash(n) need no further hypothesis."
  },
  {
   "property": "C02",
   "status": "proved",
   "theorems": [
    "Eni.Props.C02_always_returns",
    "Eni.Props.C02_find_bound",
    "Eni.Props.C02_insert_bound",
    "Eni.Props.C02_rehash_bound"
   ],
   "note": "Same limits as C01. The *_bound theorems show that the outcome diverge is not an artefact of the iteration bound of the model."
  },
  {
   "property": "C03",
   "status": "proved",
   "theorems": [
    "Eni.Props.C03_iteration",
    "Eni.Props.C03_end_throws"
   ],
   "note": ""
  },
  {
   "property": "C04",
   "status": "proved",
   "theorems": [
    "Eni.Props.C04_pointer_stability"
   ],
   "note": ""
  },
  {
   "property": "C05",
   "status": "proved",
   "theorems": [
    "Eni.Props.C05_load",
    "Eni.Props.C05_counters"
   ],
   "note": ""
  },
  {
   "property": "C06",
   "status": "proved",
   "theorems": [
    "Eni.Props.C06_copy_independent",
    "Eni.Props.C06_programs"
   ],
   "note": "C06_programs: arbitrary programs over several table variables have value semantics."
  },
  {
   "property": "C07",
   "status": "partial",
   "theorems": [
    "Eni.Props.C07_copy_of_null_false",
    "Eni.Props.C07_copy_after_clear_false",
    "Eni.Props.C07_copy_usable_partial"
   ],
   "note": "The property is false of the code: copies of tables without bucket array compute % 0. Proved: disproof for every key and hash function, and the positive statement for tables that own an array."
  },
  {
   "property": "C08",
   "status": "partial",
   "theorems": [
    "Eni.Props.C08_self_assignment_false"
   ],
   "note": "The property is false of the code for every table: self-assignment empties it and every later lookup computes % 0."
  },
  {
   "property": "C09",
   "status": "partial",
   "theorems": [
    "Eni.Props.C09_count",
    "Eni.Props.C09_count_partial",
    "Eni.Props.C09_count_false"
   ],
   "note": "False of the code. C09_count characterises count completely; C09_count_partial is the property for keys without full hash collisions and, if absent, nonzero hash."
  },
  {
   "property": "C10",
   "status": "partial",
   "theorems": [
    "Eni.Props.C10_no_leak",
    "Eni.Props.C10_programs",
    "Eni.Props.C10_programs_iff",
    "Eni.Props.C10_programs_partial",
    "Eni.Props.C10_assign_leaks_false"
   ],
   "note": "C10_no_leak proves the property for one table and any history. For programs with several tables, assignments onto non-empty tables included: nothing is released twice, and the number of entries that no table owns is exactly the number of bindings overwritten by copy/move assignment, so nothing is left iff that is zero. The code leaks otherwise (disproof)."
  },
  {
   "property": "C100",
   "status": "partial",
   "theorems": [
    "Eni.Props.C100_programs_partial",
    "Eni.Props.C100_room_iff",
    "Eni.Props.C100_wrap_false",
    "Eni.Props.C100_null",
    "Eni.Props.C100_void_false",
    "Eni.Props.C100_entry_partial",
    "Eni.Props.C100_entry_false"
   ],
   "note": "False of the code above max_size(): the size in bytes wraps around, 2^61+1 objects of 8 bytes get 8 bytes; the specialisation for void takes the count as bytes, that for table entries ignores it. Proved for all programs that ask for at most max_size() objects at a time, and that this is the exact limit."
  },
  {
   "property": "C101",
   "status": "partial",
   "theorems": [
    "Eni.Props.C101_ends_partial",
    "Eni.Props.C101_value",
    "Eni.Props.C101_endless_false",
    "Eni.Props.C101_es"
   ],
   "note": "False of the code for strings of 2^32 bytes or more: the 32-bit index never reaches the length. Proved: eleven functions return exactly for the shorter strings; the twelfth for all ASCII strings."
  },
  {
   "property": "C102",
   "status": "proved",
   "theorems": [
    "Eni.Props.C102_reverse",
    "Eni.Props.C102_json",
    "Eni.Props.C102_encrypt",
    "Eni.Props.C102_decrypt",
    "Eni.Props.C102_scrypt"
   ],
   "note": "For every text for which run returns a result, including texts that are not JSON behind the array."
  },
  {
   "property": "C103",
   "status": "partial",
   "theorems": [
    "Eni.Props.C103_reverse_partial",
    "Eni.Props.C103_reverse_false",
    "Eni.Props.C103_scrypt_false",
    "Eni.Props.C103_encrypt_false",
    "Eni.Props.C103_json_false",
    "Eni.Props.C103_memory_false"
   ],
   "note": "False of the code: the price depends on one argument (rsa_encrypt: on the key). Texts of any length cost nothing, and a text of 2n+7 bytes with price 0 leaves more than n^2 objects allocated. Proved: a text with one string costs reverse at least its length minus 4."
  },
  {
   "property": "C104",
   "status": "partial",
   "theorems": [
    "Eni.Props.C104_string_partial",
    "Eni.Props.C104_array_partial",
    "Eni.Props.C104_object_partial",
    "Eni.Props.C104_string_false",
    "Eni.Props.C104_array_false",
    "Eni.Props.C104_key_false"
   ],
   "note": "False of the code: parseString on a range with another JSON text than a string, arrayGet with an index outside, objectGet on an object with a key that is another JSON text read the wrong member of a union or past a vector. Proved for all data and all token lists: exactly when this happens and the result otherwise. The list must not be empty (tokens[0]); data below 1 GB."
  },
  {
   "property": "C105",
   "status": "partial",
   "theorems": [
    "Eni.Props.C105_ordinary_partial",
    "Eni.Props.C105_blind_partial",
    "Eni.Props.C105_growth_false",
    "Eni.Props.C105_first_element_false",
    "Eni.Props.C105_construct_false",
    "Eni.Props.C105_move_false",
    "Eni.Props.C105_destroy_false"
   ],
   "note": "False of the code: assignment to the uninitialised bytes of realloc, objects moved by realloc, no destructor is ever called. Proved: for ordinary classes the exact histories that are defined (never more elements than constructed with) and the exact number of objects left behind; for classes whose assignment does not look at the target all histories are defined, and nothing is released."
  },
  {
   "property": "C106",
   "status": "partial",
   "theorems": [
    "Eni.Props.C106_print_partial",
    "Eni.Props.C106_print_false",
    "Eni.Props.C106_parsed_partial"
   ],
   "note": "False of the code: the int counter of Array::print overflows for 2^31 elements. Proved exactly; everything the parser accepts is below (keys of at most 65535 bytes)."
  },
  {
   "property": "C107",
   "status": "partial",
   "theorems": [
    "Eni.Props.C107_same",
    "Eni.Props.C107_insert_partial",
    "Eni.Props.C107_bound_partial",
    "Eni.Props.C107_collisions",
    "Eni.Props.C107_crowd_false",
    "Eni.Props.C107_linear_false",
    "Eni.Props.C107_gigabyte_false"
   ],
   "note": "False of the code: the hash function has colliding words, so 2^m member names of 4 m bytes take exactly 2^m (2^m + 1) / 2 looks at buckets. Proved: at most half of the square of the length for every text. Moves by rehashing are C86."
  },
  {
   "property": "C108",
   "status": "partial",
   "theorems": [
    "Eni.Props.C108_run_partial",
    "Eni.Props.C108_reverse_false",
    "Eni.Props.C108_scrypt_false",
    "Eni.Props.C108_rsa_false",
    "Eni.Props.C108_unquoted_false",
    "Eni.Props.C108_guide_partial",
    "Eni.Props.C108_guide_false"
   ],
   "note": "False of the code: the operations charge ten per byte. Proved: what the documentation says of eni_run reverse; the documented price is wrong for every non-empty argument; the RSA commands of docs/tools/eni_cli.rst lack quotation marks and only print the usage."
  },
  {
   "property": "C109",
   "status": "proved",
   "theorems": [
    "Eni.Props.C109_unsigned",
    "Eni.Props.C109_stored",
    "Eni.Props.C109_signed",
    "Eni.Props.C109_bool"
   ],
   "note": "What Boost does (decimal streaming, reduction modulo 2^width) is part of the model."
  },
  {
   "property": "C11",
   "status": "proved",
   "theorems": [
    "Eni.Props.C11_string_map"
   ],
   "note": "Any value type; histories of at most 1073643498 operations, initial size <= 1431524664."
  },
  {
   "property": "C110",
   "status": "partial",
   "theorems": [
    "Eni.Props.C110_granted",
    "Eni.Props.C110_run_partial",
    "Eni.Props.C110_run_false",
    "Eni.Props.C110_gas_false"
   ],
   "note": "False of the code: OP_gas writes through the null pointer, OP_run returns the null pointer that also stands for rejected arguments. Proved: OP_run is otherwise defined as with enough memory and never returns a text."
  },
  {
   "property": "C111",
   "status": "proved",
   "theorems": [
    "Eni.Props.C111_arguments"
   ],
   "note": "Texts of at most 1073643498 bytes, keys of at most 65535 bytes, no NUL (the argument is a C string)."
  },
  {
   "property": "C112",
   "status": "proved",
   "theorems": [
    "Eni.Props.C112_program",
    "Eni.Props.C112_parsed",
    "Eni.Props.C112_plain",
    "Eni.Props.C112_round_trip"
   ],
   "note": "The order of the members is arbitrary in the memory model; the int counter of Array::print is C106, the recursion depth C76."
  },
  {
   "property": "C113",
   "status": "partial",
   "theorems": [
    "Eni.Props.C113_scanner",
    "Eni.Props.C113_signed",
    "Eni.Props.C113_parse",
    "Eni.Props.C113_entry",
    "Eni.Props.C113_short",
    "Eni.Props.C113_shipped",
    "Eni.Props.C113_json",
    "Eni.Props.C113_hashers_partial",
    "Eni.Props.C113_decrypt_partial",
    "Eni.Props.C113_hashers_false",
    "Eni.Props.C113_print_false",
    "Eni.Props.C113_decrypt_false"
   ],
   "note": "False of the code: string hashes, and so the order of members, differ for keys that are not ASCII; rsa_decrypt differs for messages that are not ASCII. Proved: the same texts are accepted, the values are alike, equal for ASCII keys; prices and results of all operations that do not ask for the order of members."
  },
  {
   "property": "C114",
   "status": "partial",
   "theorems": [
    "Eni.Props.C114_accepted",
    "Eni.Props.C114_exact_partial",
    "Eni.Props.C114_one_part_partial",
    "Eni.Props.C114_linked_partial",
    "Eni.Props.C114_escape_false"
   ],
   "note": "False of the code: ParserError is declared in an unnamed namespace of a header, so each translation unit has its own class; a handler of one does not catch that of another. Proved exactly for which builds every text ends as it should."
  },
  {
   "property": "C115",
   "status": "partial",
   "theorems": [
    "Eni.Props.C115_exact_partial",
    "Eni.Props.C115_empty_partial",
    "Eni.Props.C115_elements_partial",
    "Eni.Props.C115_objects_partial",
    "Eni.Props.C115_resize",
    "Eni.Props.C115_push_false",
    "Eni.Props.C115_removed_false",
    "Eni.Props.C115_insert_false",
    "Eni.Props.C115_erase_false",
    "Eni.Props.C115_pop_false"
   ],
   "note": "False of the code: push_back and emplace_back enlarge the vector before the element is assigned, so a failed one exposes an indeterminate cell or brings a removed element back; pop_back loses the element. Proved exactly for all histories in which no push_back fails: what the vector contains whichever copies fail; resize keeps everything. The theorems about insert and erase show that these keep proper elements but not the old sequence."
  },
  {
   "property": "C116",
   "status": "partial",
   "theorems": [
    "Eni.Props.C116_few_partial",
    "Eni.Props.C116_copy",
    "Eni.Props.C116_three_false",
    "Eni.Props.C116_count_false",
    "Eni.Props.C116_assign_false"
   ],
   "note": "False of the code: insert lowers the number of tombstones before the entry is made, so that after three failures on a table of 17 buckets a search can run for ever; a failed insertion leaves its hash value in an empty bucket, which count dereferences; a failed copy assignment leaves a pointer to a block without object. Proved for all histories with at most two failures after the first removal (any number before it; more for larger tables): the table is the finite map; a failed copy construction keeps the source."
  },
  {
   "property": "C117",
   "status": "partial",
   "theorems": [
    "Eni.Props.C117_reference",
    "Eni.Props.C117_unheard",
    "Eni.Props.C117_copies_partial",
    "Eni.Props.C117_copied_memory_false",
    "Eni.Props.C117_distinct",
    "Eni.Props.C117_vector",
    "Eni.Props.C117_map"
   ],
   "note": "False of the code for handlers that take the exception by value: std::bad_alloc has no place for the text, so \"no memory\" is lost, and copying an Exception that is not derived from std::logic_error reads its member m_ErrNo, which is never set. Proved for all lists of handlers: which one is entered and what it is told; handlers by reference always get the text."
  },
  {
   "property": "C118",
   "status": "partial",
   "theorems": [
    "Eni.Props.C118_exact_partial",
    "Eni.Props.C118_main_partial",
    "Eni.Props.C118_first_false"
   ],
   "note": "False of the code: the texts of the exceptions and the null value are static objects that are initialised at run time, in an unspecified order relative to those of other translation units. Proved exactly for which orders a program is defined; if it is, it sees what main would see."
  },
  {
   "property": "C119",
   "status": "partial",
   "theorems": [
    "Eni.Props.C119_exact_partial",
    "Eni.Props.C119_long_partial",
    "Eni.Props.C119_short",
    "Eni.Props.C119_negative",
    "Eni.Props.C119_tail_false"
   ],
   "note": "False of the code: the length is converted to int, so that a multiple of 4 GiB behind a ciphertext is ignored. Proved: messages of less than 2^31 bytes are rejected if they are longer than the modulus, and exactly what is decrypted for all lengths that int represents after the conversion. What openssl does with a negative length is a parameter."
  },
  {
   "property": "C12",
   "status": "partial",
   "theorems": [
    "Eni.Props.C12_long_key_false",
    "Eni.Props.C12_assigned_found_partial"
   ],
   "note": "False of the code: the key length is stored in 16 bits. Shown for every key of 65536 bytes or more after every history; the property holds for shorter keys."
  },
  {
   "property": "C120",
   "status": "partial",
   "theorems": [
    "Eni.Props.C120_exact_partial",
    "Eni.Props.C120_refused",
    "Eni.Props.C120_pointer_false",
    "Eni.Props.C120_literal_false",
    "Eni.Props.C120_enumerator_false",
    "Eni.Props.C120_null_value"
   ],
   "note": "False of the code: every pointer that is not one to characters becomes a boolean, an enumerator its number (so the null value is the integer 5), literals are cut at NUL, null pointers are undefined behaviour. Proved exactly for which arguments it holds and which do not compile."
  },
  {
   "property": "C121",
   "status": "partial",
   "theorems": [
    "Eni.Props.C121_exact_partial",
    "Eni.Props.C121_small_partial",
    "Eni.Props.C121_wrap_false",
    "Eni.Props.C121_float_false",
    "Eni.Props.C121_enum_partial",
    "Eni.Props.C121_vector",
    "Eni.Props.C121_key"
   ],
   "note": "False of the code: the parameter is an int, so that index 2^32 gives the first element. Proved: only the low 32 bits count; right for all values that int represents; at of vectors is right for all integer types."
  },
  {
   "property": "C122",
   "status": "partial",
   "theorems": [
    "Eni.Props.C122_plain_partial",
    "Eni.Props.C122_text_partial",
    "Eni.Props.C122_width_false",
    "Eni.Props.C122_number_false",
    "Eni.Props.C122_radix",
    "Eni.Props.C122_bad",
    "Eni.Props.C122_fresh"
   ],
   "note": "False of the code: a width applies to the first bracket or quote, integers follow the number base of the stream (negative ones throw in base 8 and 16). Proved: every value on every stream with decimal numbers, no plus sign and no width; values without integers whatever the base; exactly which integers keep their text; the text of start() is printed to a new stream."
  },
  {
   "property": "C123",
   "status": "proved",
   "theorems": [
    "Eni.Props.C123_pairs",
    "Eni.Props.C123_released",
    "Eni.Props.C123_orphan"
   ],
   "note": "One table; the limits on the number of entries are those of C02. Overwriting a key by one that is already bound under the same hash value is excluded."
  },
  {
   "property": "C124",
   "status": "partial",
   "theorems": [
    "Eni.Props.C124_core",
    "Eni.Props.C124_pbkdf2",
    "Eni.Props.C124_work",
    "Eni.Props.C124_price_false",
    "Eni.Props.C124_bound_partial"
   ],
   "note": "FALSE of the code: the work is the same for every accepted argument (C124_work gives it exactly), while every price from 0 to 800 in steps of ten is asked for it (C124_price_false). C124_core: the exact work of the hash function for inputs of any length; C124_bound_partial: the relation that does hold."
  },
  {
   "property": "C125",
   "status": "partial",
   "theorems": [
    "Eni.Props.C125_programs_partial",
    "Eni.Props.C125_assign_partial",
    "Eni.Props.C125_exact_partial",
    "Eni.Props.C125_part_false",
    "Eni.Props.C125_object_false",
    "Eni.Props.C125_clear_leaks_false"
   ],
   "note": "FALSE of the code for assignments to a part of the source (C125_part_false) and for every assignment of objects (C125_object_false: no return statement). Proved for all other programs, including self-assignment and a source that is a part of the target. Former elements are never released (C125_clear_leaks_false)."
  },
  {
   "property": "C126",
   "status": "partial",
   "theorems": [
    "Eni.Props.C126_programs_partial",
    "Eni.Props.C126_kind_partial",
    "Eni.Props.C126_mixed_false",
    "Eni.Props.C126_destroy_false",
    "Eni.Props.C126_revived_false",
    "Eni.Props.C126_null_false"
   ],
   "note": "FALSE of the code: assignment through the public base class changes the kind and leaves the contents (C126_mixed_false: in every reachable state, for every two kinds), can give a moved-from value its kind and so its pointer back (C126_revived_false), or a kind to an undefined value (C126_null_false). Proved for all programs that use the base class only between values of the same kind or to make values undefined."
  },
  {
   "property": "C127",
   "status": "proved",
   "theorems": [
    "Eni.Props.C127_capacity",
    "Eni.Props.C127_within_capacity",
    "Eni.Props.C127_beyond_capacity"
   ],
   "note": "For all histories of all operations within 64-bit byte counts (C20 says what happens beyond): reports, contents and capacities are a function of the history, and the memory is between the capacity and twice the capacity."
  },
  {
   "property": "C128",
   "status": "partial",
   "theorems": [
    "Eni.Props.C128_report",
    "Eni.Props.C128_visible_partial",
    "Eni.Props.C128_trailing_false",
    "Eni.Props.C128_embedded_false"
   ],
   "note": "C128_report gives the printed text for all runs. FALSE of the code that different observations have different reports: white space at the end is removed before printing but compared (C128_trailing_false), and an output of several lines can look like an error output (C128_embedded_false). C128_visible_partial: exact for outputs of one line."
  },
  {
   "property": "C129",
   "status": "partial",
   "theorems": [
    "Eni.Props.C129_method",
    "Eni.Props.C129_least",
    "Eni.Props.C129_price",
    "Eni.Props.C129_same_false",
    "Eni.Props.C129_factor_false",
    "Eni.Props.C129_limits_false",
    "Eni.Props.C129_bound_partial"
   ],
   "note": "FALSE of the code: the price depends on the size of the modulus alone. Adding a common multiple of the orders to the public exponent keeps results and price but raises the least number of multiplications to the logarithm of the new exponent (C129_same_false). Within the limits of openssl: a modulus of at most 3072 bits where one exponent takes no multiplication and another at least 3069 (C129_limits_false, m = 1534). C129_factor_false (no factor at all) is about the model only: for large factors its keys exceed the limits of openssl, which the model leaves out. C129_bound_partial: for exponents below the modulus some program takes at most 1.6 multiplications per unit of gas. The programs compute the power with exactly the given exponent; methods that use the factors of the modulus (Chinese remainders in rsa_decrypt) are not considered, and no statement is made about which program openssl uses."
  },
  {
   "property": "C13",
   "status": "proved",
   "theorems": [
    "Eni.Props.C13_elf_pjw_range",
    "Eni.Props.C13_es_total"
   ],
   "note": "Strings below 2^32 bytes (the loop counter of the hashers is 32 bits wide). ES is total only on 7-bit strings; otherwise isdigit of a negative int, stated as UB."
  },
  {
   "property": "C130",
   "status": "partial",
   "theorems": [
    "Eni.Props.C130_bytes",
    "Eni.Props.C130_digits",
    "Eni.Props.C130_plain_partial",
    "Eni.Props.C130_address_false",
    "Eni.Props.C130_stale_false",
    "Eni.Props.C130_moved_false"
   ],
   "note": "FALSE of the code: the text contains the bytes of the union. Equal strings at different addresses print differently (C130_address_false), a boolean assigned over a string prints the rest of the address (C130_stale_false), a moved-from boolean is undefined and prints the boolean (C130_moved_false). C130_plain_partial: exact text of variables whose memory never held an address. The read of the member pointer is taken as gcc defines it (the bytes, 64-bit little endian); for another active member C++ itself leaves it undefined. Destruction is not among the statements."
  },
  {
   "property": "C131",
   "status": "partial",
   "theorems": [
    "Eni.Props.C131_reverse",
    "Eni.Props.C131_json",
    "Eni.Props.C131_scrypt",
    "Eni.Props.C131_encrypt_partial",
    "Eni.Props.C131_decrypt_partial",
    "Eni.Props.C131_encrypt_false",
    "Eni.Props.C131_decrypt_false",
    "Eni.Props.C131_rsa_false",
    "Eni.Props.C131_1500_false",
    "Eni.Props.C131_limits"
   ],
   "note": "Proved for reverse, json and scrypt (any text). FALSE of rsa_encrypt and rsa_decrypt for every key: blocks not below the modulus have a price and no result; C131_encrypt_partial and C131_decrypt_partial say exactly which arguments have one. 1500 is a price as well for a modulus of 150 bytes (C131_1500_false); never for scrypt. Reading a PEM text is a parameter. C131_limits: for every set of keys that openssl reads but refuses to use, those have a price and never a result, and the other keys behave as in all theorems about RSA."
  },
  {
   "property": "C132",
   "status": "partial",
   "theorems": [
    "Eni.Props.C132_reverse",
    "Eni.Props.C132_encrypt",
    "Eni.Props.C132_decrypt",
    "Eni.Props.C132_scrypt_false",
    "Eni.Props.C132_chance",
    "Eni.Props.C132_hex"
   ],
   "note": "FALSE of scrypt: of its two cases in the list the one with hexadecimal digits is lost (C67_shipped_false), and the other is refused by scrypt unless all 160 random characters happen to be hexadecimal digits, which fewer than one in 10^56 of the texts are (C132_chance). The script counts the refusals as a success even if every execution used a different SHA-256 (C132_scrypt_false). With the lost case it would hold (C132_hex). Proved of reverse and, for a modulus with its first bit set, of rsa_encrypt; of rsa_decrypt for ciphertexts below the modulus whose decrypted block contains a NUL. Reading the PEM files is a parameter; that the files of the project satisfy these conditions was read off by hand."
  },
  {
   "property": "C133",
   "status": "partial",
   "theorems": [
    "Eni.Props.C133_passes",
    "Eni.Props.C133_sound",
    "Eni.Props.C133_line_partial",
    "Eni.Props.C133_tool_partial",
    "Eni.Props.C133_script",
    "Eni.Props.C133_status_false",
    "Eni.Props.C133_bytes_false"
   ],
   "note": "FALSE of the code: the status of the command is not looked at (C133_status_false), both streams are taken together, NUL bytes are dropped and line feeds at the end cut off (C133_bytes_false). C133_passes says exactly what passes. For commands that write one line and nothing else, as eni_run and eni_gas do, the line must be the expected one (C133_line_partial, C133_tool_partial). C133_script: set -e. Only scripts that consist of calls of o_expect are modelled; the behaviour of bash ($(...), set -e, [) is part of the model."
  },
  {
   "property": "C134",
   "status": "partial",
   "theorems": [
    "Eni.Props.C134_exact",
    "Eni.Props.C134_documented",
    "Eni.Props.C134_reported_partial",
    "Eni.Props.C134_colon_false",
    "Eni.Props.C134_negative_false"
   ],
   "note": "False of the code: the second character of an argument is never looked at, so s32 stands for two characters, and negative lengths give the empty text; such cases are run and can succeed. Proved: exactly which arguments are expanded and to what; the documented forms; an unknown first letter or a length that is no integer makes the script fail."
  },
  {
   "property": "C135",
   "status": "partial",
   "theorems": [
    "Eni.Props.C135_exact",
    "Eni.Props.C135_ascii_partial",
    "Eni.Props.C135_string",
    "Eni.Props.C135_utf8_false",
    "Eni.Props.C135_collision_false",
    "Eni.Props.C135_int",
    "Eni.Props.C135_printable",
    "Eni.Props.C135_parse",
    "Eni.Props.C135_parse_false",
    "Eni.Props.C135_operation",
    "Eni.Props.C135_reverse",
    "Eni.Props.C135_positions_partial",
    "Eni.Props.C135_positions_false"
   ],
   "note": "FALSE of the code: json.dumps escapes every character that is not ASCII, and the escape is decoded to its low byte (C35), so that no string with such a character arrives as its UTF-8 bytes (C135_utf8_false; C135_string: exactly these), and different strings become equal (C135_collision_false). C135_exact says what arrives of every list; positions count characters exactly below U+10000 (C135_positions_partial, C135_positions_false); integers arrive exactly below 2^256 in magnitude (C135_int). json.dumps is modelled for lists of strings without surrogates, integers and booleans."
  },
  {
   "property": "C136",
   "status": "partial",
   "theorems": [
    "Eni.Props.C136_range",
    "Eni.Props.C136_token",
    "Eni.Props.C136_ranges",
    "Eni.Props.C136_ranges_partial",
    "Eni.Props.C136_extra_false",
    "Eni.Props.C136_prefix_false"
   ],
   "note": "Proved of assertRange for the first text of the result (C136_range; C136_token: for every token the operation encodes). FALSE of assertRanges: it reads as many numbers as are expected and ignores what follows (C136_extra_false: for every text behind and all further elements; C136_prefix_false: for the elements of any array, the last ones may be left out). C136_ranges is the exact condition; for results of the expected length only one text passes (C136_ranges_partial). int(b, 16) is a parameter of which the value for lower-case digits is assumed. Further elements of the result are ignored by both."
  },
  {
   "property": "C14",
   "status": "partial",
   "theorems": [
    "Eni.Props.C14_may_include_iff",
    "Eni.Props.C14_substring_partial",
    "Eni.Props.C14_substring_false"
   ],
   "note": "False of the code with 16 or more dots (4-bit counter). C14_may_include_iff characterises may_include completely."
  },
  {
   "property": "C15",
   "status": "partial",
   "theorems": [
    "Eni.Props.C15_rehash_small_false",
    "Eni.Props.C15_rehash_exact_false",
    "Eni.Props.C15_rehash_partial"
   ],
   "note": "False of the code for n <= number of entries (shown in general, not for one example); proved for n above it."
  },
  {
   "property": "C16",
   "status": "proved",
   "theorems": [
    "Eni.Props.C16_vector_is_sequence",
    "Eni.Props.C16_vector_is_sequence_granted"
   ],
   "note": "All trivially copyable element types; sizes n with sizeof(E)*2n < 2^64; any pattern of refused allocations."
  },
  {
   "property": "C17",
   "status": "proved",
   "theorems": [
    "Eni.Props.C17_checked_access"
   ],
   "note": "All reachable vectors and all int / size_t indices."
  },
  {
   "property": "C18",
   "status": "partial",
   "theorems": [
    "Eni.Props.C18_erase_to_end_false",
    "Eni.Props.C18_erase_partial"
   ],
   "note": "False of the code: every range ending at the end is rejected. Proved for last < size."
  },
  {
   "property": "C19",
   "status": "partial",
   "theorems": [
    "Eni.Props.C19_push_back_own_false",
    "Eni.Props.C19_insert_own_false",
    "Eni.Props.C19_own_element_partial"
   ],
   "note": "False of the code: dangling reference after reallocation, shifted element for j >= i+n. Proved when no reallocation is needed and j < i+n."
  },
  {
   "property": "C20",
   "status": "partial",
   "theorems": [
    "Eni.Props.C20_reserve_diverges_false",
    "Eni.Props.C20_loop_bound_adequate",
    "Eni.Props.C20_reserve_wraps_false",
    "Eni.Props.C20_reserve_destroys_false",
    "Eni.Props.C20_length_error_unreachable",
    "Eni.Props.C20_reserve_partial",
    "Eni.Props.C20_exact_partial",
    "Eni.Props.C20_huge_false"
   ],
   "note": "False of the code: endless loop above 2^63, wrapping byte count. Proved when sizeof(E)*2n < 2^64; and exactly which requests of at most 2^63 elements are served, and that no larger one is for elements of two bytes or more."
  },
  {
   "property": "C21",
   "status": "proved",
   "theorems": [
    "Eni.Props.C21_allocation_failure",
    "Eni.Props.C16_vector_is_sequence"
   ],
   "note": "Sizes with sizeof(E)*2n < 2^64."
  },
  {
   "property": "C22",
   "status": "proved",
   "theorems": [
    "Eni.Props.C22_iterator_laws",
    "Eni.Props.C22_iterator_comparable",
    "Eni.Props.C22_iterator_index"
   ],
   "note": "operator= of the iterator lacks a return statement (UB) and is excluded."
  },
  {
   "property": "C23",
   "status": "proved",
   "theorems": [
    "Eni.Props.C23_total",
    "Eni.Props.C23_scanner_total"
   ],
   "note": "Texts of at most 1073643498 bytes (32-bit counters of the hash table), every memory layout; the scanner without limit. Stack depth is not modelled."
  },
  {
   "property": "C24",
   "status": "proved",
   "theorems": [
    "Eni.Props.C24_sound",
    "Eni.Props.C24_complete",
    "Eni.Props.C24_complete_noMembers",
    "Eni.Props.C24_unambiguous"
   ],
   "note": "Against an independent inductive grammar. Keys of at most 65535 bytes (see C12); completeness for layouts in which the literals lie below the end of the text (see C25)."
  },
  {
   "property": "C25",
   "status": "partial",
   "theorems": [
    "Eni.Props.C25_layout_false",
    "Eni.Props.C25_layout_partial",
    "Eni.Props.C25_no_letters_partial",
    "Eni.Props.C25_boolean_free_partial"
   ],
   "note": "False of the code: have(const char*) compares a literal address with the end of the text. Proved: the outcome is that of a good layout or failure; independent of the layout for texts without t/f and for values without booleans."
  },
  {
   "property": "C26",
   "status": "proved",
   "theorems": [
    "Eni.Props.C26_string_round_trip"
   ],
   "note": "All byte strings, all layouts."
  },
  {
   "property": "C27",
   "status": "partial",
   "theorems": [
    "Eni.Props.C27_objects_false",
    "Eni.Props.C27_round_trip_partial",
    "Eni.Props.C27_object_free_partial"
   ],
   "note": "False of the code for objects with members: keys are printed unquoted. Proved for all values without members."
  },
  {
   "property": "C28",
   "status": "proved",
   "theorems": [
    "Eni.Props.C28_integers",
    "Eni.Props.C28_print"
   ],
   "note": ""
  },
  {
   "property": "C29",
   "status": "proved",
   "theorems": [
    "Eni.Props.C29_members"
   ],
   "note": "Keys of at most 65535 bytes, texts of at most 1073643498 bytes."
  },
  {
   "property": "C30",
   "status": "proved",
   "theorems": [
    "Eni.Props.C30_array",
    "Eni.Props.C30_object",
    "Eni.Props.C30_parsed_object"
   ],
   "note": ""
  },
  {
   "property": "C31",
   "status": "proved",
   "theorems": [
    "Eni.Props.C31_root"
   ],
   "note": ""
  },
  {
   "property": "C32",
   "status": "partial",
   "theorems": [
    "Eni.Props.C32_trailing_false",
    "Eni.Props.C32_reject_partial"
   ],
   "note": "False of the code: anything after a complete value is ignored, for every text of the grammar."
  },
  {
   "property": "C33",
   "status": "partial",
   "theorems": [
    "Eni.Props.C33_other_kinds_false",
    "Eni.Props.C33_array_partial",
    "Eni.Props.C33_object_partial"
   ],
   "note": "False of the code: g_NullValue(UNDEF) is the integer 5. Objects and arrays are right."
  },
  {
   "property": "C34",
   "status": "partial",
   "theorems": [
    "Eni.Props.C34_values_partial",
    "Eni.Props.C34_next_partial",
    "Eni.Props.C34_delegate",
    "Eni.Props.C34_assign_whole_to_part_false",
    "Eni.Props.C34_push_back_self_false",
    "Eni.Props.C34_member_self_false",
    "Eni.Props.C34_push_back_own_element_false"
   ],
   "note": "False of the code for four kinds of aliasing (a value assigned to, or inserted into, a part of itself). Proved for all programs that avoid them: no undefined behaviour, plain-tree semantics, no shared storage. C34_delegate is the delegation clause in full."
  },
  {
   "property": "C35",
   "status": "partial",
   "theorems": [
    "Eni.Props.C35_escape",
    "Eni.Props.C35_above_7f_false",
    "Eni.Props.C35_ascii_partial"
   ],
   "note": "False of the code above 0x7f: the low byte of the code point is stored."
  },
  {
   "property": "C36",
   "status": "partial",
   "theorems": [
    "Eni.Props.C36_returns_once",
    "Eni.Props.C36_once_partial",
    "Eni.Props.C36_throwing_false"
   ],
   "note": "False of the code if the parse hook throws: it is invoked again by every call. Proved: at most one invocation returns (all hooks); at most one invocation (hooks that return)."
  },
  {
   "property": "C37",
   "status": "proved",
   "theorems": [
    "Eni.Props.C37_rejected",
    "Eni.Props.C37_accepted"
   ],
   "note": "For an arbitrary operation; hooks that throw included in the accepted case."
  },
  {
   "property": "C38",
   "status": "proved",
   "theorems": [
    "Eni.Props.C38_complete",
    "Eni.Props.C38_entry"
   ],
   "note": "Result arrays without objects, as in the statement."
  },
  {
   "property": "C39",
   "status": "partial",
   "theorems": [
    "Eni.Props.C39_outcomes",
    "Eni.Props.C39_not_array_false",
    "Eni.Props.C39_array_partial"
   ],
   "note": "False of the code: JSON texts that are not arrays lead to undefined behaviour. All outcomes characterised."
  },
  {
   "property": "C40",
   "status": "partial",
   "theorems": [
    "Eni.Props.C40_accumulates_false",
    "Eni.Props.C40_idempotent_partial"
   ],
   "note": "False of the code for every operation whose run hook appends (all operations in /repo)."
  },
  {
   "property": "C41",
   "status": "proved",
   "theorems": [
    "Eni.Props.C41_function",
    "Eni.Props.C41_no_letters",
    "Eni.Props.C41_layout"
   ],
   "note": "Independence of earlier calls holds by construction of the entry points; independence of the address of the text under the layout assumption of C25."
  },
  {
   "property": "C42",
   "status": "proved",
   "theorems": [
    "Eni.Props.C42_reverse",
    "Eni.Props.C42_involution"
   ],
   "note": "Every JSON notation of the argument, every layout."
  },
  {
   "property": "C43",
   "status": "proved",
   "theorems": [
    "Eni.Props.C43_accepts",
    "Eni.Props.C43_run",
    "Eni.Props.C43_rejects",
    "Eni.Props.C43_unchecked_false"
   ],
   "note": "C43_unchecked_false shows that the check of the length is needed."
  },
  {
   "property": "C44",
   "status": "proved",
   "theorems": [
    "Eni.Props.C44_scrypt",
    "Eni.Props.C44_entry"
   ],
   "note": "SHA-256 (openssl) is a parameter. C44_entry: from the C entry point to the printed hash. The SSE2 variant is not modelled."
  },
  {
   "property": "C45",
   "status": "partial",
   "theorems": [
    "Eni.Props.C45_hmac",
    "Eni.Props.C45_pbkdf2_partial",
    "Eni.Props.C45_last_count_false"
   ],
   "note": "False for the single iteration count 2^64-1, for which the loop counter wraps; proved for all others."
  },
  {
   "property": "C46",
   "status": "proved",
   "theorems": [
    "Eni.Props.C46_denotation",
    "Eni.Props.C46_notations",
    "Eni.Props.C46_output",
    "Eni.Props.C46_gas"
   ],
   "note": ""
  },
  {
   "property": "C47",
   "status": "partial",
   "theorems": [
    "Eni.Props.C47_bytes",
    "Eni.Props.C47_length",
    "Eni.Props.C47_digits_partial",
    "Eni.Props.C47_upper_case_false"
   ],
   "note": "False for upper-case digits, which are misread; proved for all byte strings and for all lower-case digit strings."
  },
  {
   "property": "C48",
   "status": "partial",
   "theorems": [
    "Eni.Props.C48_outcome",
    "Eni.Props.C48_partial",
    "Eni.Props.C48_nul_false",
    "Eni.Props.C48_full_length_false",
    "Eni.Props.C48_refused_false",
    "Eni.Props.C48_long_false"
   ],
   "note": "False of the code; C48_outcome describes the result for every key pair and every message. RSA without padding is x^e mod n (openssl is not part of /repo); keys that openssl refuses (modulus above 16384 bits, public exponent not below the modulus, or above 64 bits with a modulus above 3072 bits) are treated like others, so the statements are about keys within these limits."
  },
  {
   "property": "C49",
   "status": "proved",
   "theorems": [
    "Eni.Props.C49_tokens",
    "Eni.Props.C49_array",
    "Eni.Props.C49_json",
    "Eni.Props.C49_entry"
   ],
   "note": "jsmn is a missing submodule: its token list is a hypothesis, specified for all of JSON in Spec/Tokens and proved unique. An index behind the last element is undefined behaviour (second part of C49_json)."
  },
  {
   "property": "C50",
   "status": "proved",
   "theorems": [
    "Eni.Props.C50_object",
    "Eni.Props.C50_json",
    "Eni.Props.C50_entry"
   ],
   "note": "As C49."
  },
  {
   "property": "C51",
   "status": "proved",
   "theorems": [
    "Eni.Props.C51_encode",
    "Eni.Props.C51_lossless"
   ],
   "note": "Positions of type int; adding the quote to the largest int is undefined behaviour."
  },
  {
   "property": "C52",
   "status": "partial",
   "theorems": [
    "Eni.Props.C52_partial",
    "Eni.Props.C52_false"
   ],
   "note": "False of the code: the end of the range is used as a length."
  },
  {
   "property": "C53",
   "status": "proved",
   "theorems": [
    "Eni.Props.C53_iff"
   ],
   "note": ""
  },
  {
   "property": "C54",
   "status": "partial",
   "theorems": [
    "Eni.Props.C54_gas",
    "Eni.Props.C54_run",
    "Eni.Props.C54_output_partial",
    "Eni.Props.C54_parse_error_false",
    "Eni.Props.C54_delete_false"
   ],
   "note": "False of the code: eni_run exits with 1 instead of ExitParseError; memory of malloc is released by delete. C54_gas and C54_run give the outcome in every case."
  },
  {
   "property": "C55",
   "status": "partial",
   "theorems": [
    "Eni.Props.C55_one_string_partial",
    "Eni.Props.C55_two_strings_partial",
    "Eni.Props.C55_json_partial",
    "Eni.Props.C55_missing_false",
    "Eni.Props.C55_type_false",
    "Eni.Props.C55_entry_false",
    "Eni.Props.C55_json_false"
   ],
   "note": "False of the code: missing arguments and some wrong types throw an exception that nobody catches. The accepted argument arrays are characterised."
  },
  {
   "property": "C56",
   "status": "partial",
   "theorems": [
    "Eni.Props.C56_success",
    "Eni.Props.C56_partial",
    "Eni.Props.C56_utf8_false"
   ],
   "note": "False of the code for outputs that are not valid UTF-8 (the script fails with an exception); C56_success is exact."
  },
  {
   "property": "C57",
   "status": "proved",
   "theorems": [
    "Eni.Props.C57_area",
    "Eni.Props.C57_tight",
    "Eni.Props.C57_accesses",
    "Eni.Props.C57_exact",
    "Eni.Props.C57_less"
   ],
   "note": ""
  },
  {
   "property": "C58",
   "status": "partial",
   "theorems": [
    "Eni.Props.C58_copy_partial",
    "Eni.Props.C58_assignment_false",
    "Eni.Props.C58_copy_of_empty_false"
   ],
   "note": "Copy construction works for maps that own a bucket array; both assignment operators lack a return statement (UB), and copies of StringMap(0) compute % 0."
  },
  {
   "property": "C59",
   "status": "proved",
   "theorems": [
    "Eni.Props.C59_concat",
    "Eni.Props.C59_collisions_extend"
   ],
   "note": ""
  },
  {
   "property": "C60",
   "status": "partial",
   "theorems": [
    "Eni.Props.C60_constructor_refusal_false",
    "Eni.Props.C60_constructors_partial"
   ],
   "note": "False of the code: the result of calloc is not tested. Contents proved when memory is granted."
  },
  {
   "property": "C61",
   "status": "partial",
   "theorems": [
    "Eni.Props.C61_growth_false",
    "Eni.Props.C61_reserved_partial"
   ],
   "note": "False of the code: reserve records the requested size instead of the block size as capacity, so every push_back on a vector grown by push_back reallocates."
  },
  {
   "property": "C62",
   "status": "partial",
   "theorems": [
    "Eni.Props.C62_strings",
    "Eni.Props.C62_object_free_partial",
    "Eni.Props.C62_objects_false"
   ],
   "note": "False of the code for objects, which are printed over several lines. Proved for strings and all values without objects."
  },
  {
   "property": "C63",
   "status": "partial",
   "theorems": [
    "Eni.Props.C63_exact_partial",
    "Eni.Props.C63_clean_iff_partial",
    "Eni.Props.C63_destroy_partial",
    "Eni.Props.C63_array_partial",
    "Eni.Props.C63_erase_partial",
    "Eni.Props.C63_number_leaks_false",
    "Eni.Props.C63_elements_leak_false",
    "Eni.Props.C63_assignment_leaks_false"
   ],
   "note": "False of the code: numbers, array elements and overwritten contents leak. Proved: destroying a value made of strings, booleans and objects releases exactly its own cells; for every permitted program the exact number of objects allocated, in use and lost."
  },
  {
   "property": "C64",
   "status": "partial",
   "theorems": [
    "Eni.Props.C64_encrypt",
    "Eni.Props.C64_entry_partial",
    "Eni.Props.C64_size"
   ],
   "note": "The restrictions of C48 apply; C64_encrypt has none of those on messages. Keys within the limits of openssl, as for C48."
  },
  {
   "property": "C65",
   "status": "proved",
   "theorems": [
    "Eni.Props.C65_array",
    "Eni.Props.C65_object",
    "Eni.Props.C65_entry"
   ],
   "note": "Data without NUL. Token list as in C49."
  },
  {
   "property": "C66",
   "status": "proved",
   "theorems": [
    "Eni.Props.C66_reverse"
   ],
   "note": "dlopen and dlsym are those of a system with this library; delete is taken to release memory of malloc (C54_delete_false)."
  },
  {
   "property": "C67",
   "status": "partial",
   "theorems": [
    "Eni.Props.C67_script",
    "Eni.Props.C67_difference",
    "Eni.Props.C67_file_partial",
    "Eni.Props.C67_run",
    "Eni.Props.C67_twice_false",
    "Eni.Props.C67_missed_false",
    "Eni.Props.C67_shipped_false"
   ],
   "note": "Proved for lists of cases, and for test files in which no library is named twice. FALSE of files that name a library twice: json.loads keeps the last list only, the cases written first are never run and the script may end with status 0 (C67_twice_false, C67_missed_false). The list of tests of the project itself is such a file: its case scrypt h:160 is never run (C67_shipped_false). C67_run: for every file, exactly the cases of the last list for each library are run. A file without cases is a success. Reading the JSON text itself is not modelled: a file is the list of its members."
  },
  {
   "property": "C68",
   "status": "partial",
   "theorems": [
    "Eni.Props.C68_partial",
    "Eni.Props.C68_random",
    "Eni.Props.C68_readf",
    "Eni.Props.C68_file",
    "Eni.Props.C68_quote_false",
    "Eni.Props.C68_file_false"
   ],
   "note": "False of the code for file contents with quotes or backslashes, which are not escaped, and for those with a carriage return or a line feed at the end (C68_file says exactly when); the random strings never contain them."
  },
  {
   "property": "C69",
   "status": "partial",
   "theorems": [
    "Eni.Props.C69_insert",
    "Eni.Props.C69_insert_range",
    "Eni.Props.C69_erase_partial",
    "Eni.Props.C69_erase_one_partial",
    "Eni.Props.C69_erase_end_false",
    "Eni.Props.C69_erase_empty_false",
    "Eni.Props.C69_stale"
   ],
   "note": "False of the code: erasing up to end() or an empty range throws OutOfRange. Everything else is proved."
  },
  {
   "property": "C70",
   "status": "partial",
   "theorems": [
    "Eni.Props.C70_assign",
    "Eni.Props.C70_insert_partial",
    "Eni.Props.C70_insert_grow_false",
    "Eni.Props.C70_insert_shifted_false"
   ],
   "note": "False of insert: after a reallocation the range is read from released memory, otherwise from elements that have been moved. assign is right."
  },
  {
   "property": "C71",
   "status": "partial",
   "theorems": [
    "Eni.Props.C71_effect_partial",
    "Eni.Props.C71_leak_false"
   ],
   "note": "False of the code: the temporary object is created with new and never deleted."
  },
  {
   "property": "C72",
   "status": "partial",
   "theorems": [
    "Eni.Props.C72_separates_partial",
    "Eni.Props.C72_bp_false",
    "Eni.Props.C72_js_ap_false"
   ],
   "note": "Proved for RS, PJW, ELF, BKDR, SDBM, DJB, DEK and FNV; false of BP, JS and AP."
  },
  {
   "property": "C73",
   "status": "partial",
   "theorems": [
    "Eni.Props.C73_layout_partial",
    "Eni.Props.C73_documented_false"
   ],
   "note": "False of the code: letters numbered from the other end, underscore instead of minus, dots modulo 16. The actual layout is proved."
  },
  {
   "property": "C74",
   "status": "partial",
   "theorems": [
    "Eni.Props.C74_no_members_partial",
    "Eni.Props.C74_object_free_partial",
    "Eni.Props.C74_objects_false"
   ],
   "note": "False of objects: keys are printed without quotes. Proved for values without members."
  },
  {
   "property": "C75",
   "status": "partial",
   "theorems": [
    "Eni.Props.C75_single_partial",
    "Eni.Props.C75_order_partial",
    "Eni.Props.C75_order_false"
   ],
   "note": "False of the code: members are printed in bucket order, which depends on the order of insertion for colliding keys. The members themselves are the same."
  },
  {
   "property": "C76",
   "status": "partial",
   "theorems": [
    "Eni.Props.C76_levels_partial",
    "Eni.Props.C76_brackets_partial",
    "Eni.Props.C76_bounded_false"
   ],
   "note": "False of the code: the depth of the recursion is the nesting of the text. The exact depth is proved."
  },
  {
   "property": "C77",
   "status": "partial",
   "theorems": [
    "Eni.Props.C77_sizes_partial",
    "Eni.Props.C77_no_buckets_false",
    "Eni.Props.C77_negative_index_false"
   ],
   "note": "False of the code for initial sizes between 1431524665 and 4294836195: size 2^32-131101 gives a table without buckets, size 2^31 negative positions. Proved for all other sizes (within the limits of C01)."
  },
  {
   "property": "C78",
   "status": "partial",
   "theorems": [
    "Eni.Props.C78_grows_partial",
    "Eni.Props.C78_stuck_false"
   ],
   "note": "False of the code: with 1431655765 buckets the test for growth never holds. Proved up to 1073643498 keys."
  },
  {
   "property": "C79",
   "status": "partial",
   "theorems": [
    "Eni.Props.C79_erase_partial",
    "Eni.Props.C79_rehash_false"
   ],
   "note": "False of the code after rehash(n): a removal may then move all entries. Proved for all histories without rehash(n) and at most 536870911 buckets."
  },
  {
   "property": "C80",
   "status": "partial",
   "theorems": [
    "Eni.Props.C80_sweep_partial",
    "Eni.Props.C80_rehash_false"
   ],
   "note": "False of the code after rehash(n): an entry is visited twice. Proved for all histories without rehash(n) and at most 536870911 buckets."
  },
  {
   "property": "C81",
   "status": "proved",
   "theorems": [
    "Eni.Props.C81_equality",
    "Eni.Props.C81_iteration"
   ],
   "note": "For whole programs over any number of tables that follow the rules of C06 (no copies of tables without array, sizes)."
  },
  {
   "property": "C82",
   "status": "partial",
   "theorems": [
    "Eni.Props.C82_chain_partial",
    "Eni.Props.C82_equality",
    "Eni.Props.C82_absent_false"
   ],
   "note": "False of the code for unbound keys with hash value 0 (null dereference) and for tables without array (% 0); proved for bound keys and all other unbound keys."
  },
  {
   "property": "C83",
   "status": "partial",
   "theorems": [
    "Eni.Props.C83_partial",
    "Eni.Props.C83_constructor_partial",
    "Eni.Props.C83_insert_false",
    "Eni.Props.C83_rehash_false",
    "Eni.Props.C83_constructor_false",
    "Eni.Props.C83_copy_empty"
   ],
   "note": "False of the code: null pointers are used unchecked. Proved: the outcome is undefined behaviour or exactly that of the finite map; a refused constructor is harmless for histories without rehash(n)."
  },
  {
   "property": "C84",
   "status": "proved",
   "theorems": [
    "Eni.Props.C84_storage",
    "Eni.Props.C84_tight"
   ],
   "note": "Keys below 2^62 bytes; the key read back is the key up to 65535 bytes (longer keys: C12)."
  },
  {
   "property": "C85",
   "status": "partial",
   "theorems": [
    "Eni.Props.C85_partial",
    "Eni.Props.C85_scalar_false"
   ],
   "note": "False of the code for scalar value types: the value of a new key is indeterminate. Proved for class types, and for scalar types if m[k] is only evaluated for bound keys."
  },
  {
   "property": "C86",
   "status": "partial",
   "theorems": [
    "Eni.Props.C86_partial",
    "Eni.Props.C86_growth_false",
    "Eni.Props.C86_reserve_false"
   ],
   "note": "False of the code: from 196613 buckets on tables grow by a constant, so the moves grow with the square of the number of keys; initial sizes above 536739810 make every insertion move all entries. Proved: upper bound n^2/196650 + 10 n, which the lower bound matches up to the linear term."
  },
  {
   "property": "C87",
   "status": "partial",
   "theorems": [
    "Eni.Props.C87_keys_partial",
    "Eni.Props.C87_answers",
    "Eni.Props.C87_functions_false",
    "Eni.Props.C87_overwrite_false",
    "Eni.Props.C87_copy_false",
    "Eni.Props.C87_encrypt_false",
    "Eni.Props.C87_decrypt_false",
    "Eni.Props.C87_run_false",
    "Eni.Props.C87_throw_false"
   ],
   "note": "False of the code: every key read leaves a BIO and every encryption or decryption a buffer (exact numbers for all programs and sessions). Proved for keys: careful programs release each exactly once."
  },
  {
   "property": "C88",
   "status": "partial",
   "theorems": [
    "Eni.Props.C88_tools",
    "Eni.Props.C88_not_json",
    "Eni.Props.C88_not_array_false"
   ],
   "note": "False of the code for JSON texts that are not arrays (undefined behaviour). Proved for arrays, all operations, results without objects."
  },
  {
   "property": "C89",
   "status": "partial",
   "theorems": [
    "Eni.Props.C89_scrypt",
    "Eni.Props.C89_rsa_partial",
    "Eni.Props.C89_json"
   ],
   "note": "RSA with the restrictions of C48 (false without them), and keys within the limits of openssl as there."
  },
  {
   "property": "C90",
   "status": "proved",
   "theorems": [
    "Eni.Props.C90_safe",
    "Eni.Props.C90_value",
    "Eni.Props.C90_sound",
    "Eni.Props.C90_agrees",
    "Eni.Props.C90_tree"
   ],
   "note": "For every text and every growth behaviour of the stack; recursion depth apart (C76)."
  },
  {
   "property": "C91",
   "status": "partial",
   "theorems": [
    "Eni.Props.C91_iff_partial",
    "Eni.Props.C91_amount_partial",
    "Eni.Props.C91_string_argument_false"
   ],
   "note": "False of the code: [\"x\"] leaves five objects behind. Proved: nothing stays behind exactly for values without numbers, arrays with other elements than booleans and overwritten members; the exact amounts."
  },
  {
   "property": "C92",
   "status": "partial",
   "theorems": [
    "Eni.Props.C92_bound_partial",
    "Eni.Props.C92_quadratic_false",
    "Eni.Props.C92_linear_false"
   ],
   "note": "False of the code: n nested arrays lose about 1.5 n^2 objects. Proved: a quadratic bound for every text."
  },
  {
   "property": "C93",
   "status": "proved",
   "theorems": [
    "Eni.Props.C93_calls",
    "Eni.Props.C93_text",
    "Eni.Props.C93_others",
    "Eni.Props.C93_terminated",
    "Eni.Props.C93_agrees",
    "Eni.Props.C93_reverse"
   ],
   "note": "Results are booleans, integers and strings; texts that are not arrays are undefined behaviour (C39)."
  },
  {
   "property": "C94",
   "status": "partial",
   "theorems": [
    "Eni.Props.C94_amount_partial",
    "Eni.Props.C94_iff_partial",
    "Eni.Props.C94_reverse_false",
    "Eni.Props.C94_throw_false"
   ],
   "note": "False of the code: every result leaves objects behind, an exception leaves everything. Proved: the exact amounts, and that nothing stays behind exactly for clean arguments and no results."
  },
  {
   "property": "C95",
   "status": "proved",
   "theorems": [
    "Eni.Props.C95_independent",
    "Eni.Props.C95_calls"
   ],
   "note": "No hypotheses on texts or operations; a call that ends the process or is undefined behaviour does so in both cases."
  },
  {
   "property": "C96",
   "status": "partial",
   "theorems": [
    "Eni.Props.C96_sum_partial",
    "Eni.Props.C96_repeat_partial",
    "Eni.Props.C96_reverse_false",
    "Eni.Props.C96_clean_partial"
   ],
   "note": "False of the code: n calls of reverse_run leave at least 8 n objects. Proved: the amount is the sum of what the calls leave apart, and only what the caller got for calls without results on clean arguments."
  },
  {
   "property": "C97",
   "status": "proved",
   "theorems": [
    "Eni.Props.C97_same",
    "Eni.Props.C97_linear",
    "Eni.Props.C97_honest",
    "Eni.Props.C97_rest"
   ],
   "note": "Steps are looks at a character of the text: at most 64 per character plus 32. Work in callbacks is not counted (C92)."
  },
  {
   "property": "C98",
   "status": "partial",
   "theorems": [
    "Eni.Props.C98_programs",
    "Eni.Props.C98_iff",
    "Eni.Props.C98_released_partial",
    "Eni.Props.C98_move_false"
   ],
   "note": "False of the code: move assignment drops the array of its destination, also of an empty table. Proved for all programs (copies only of tables that own an array, C07): no use after release, no double release, no sharing; the number of arrays without owner is exactly the number of such move assignments."
  },
  {
   "property": "C99",
   "status": "proved",
   "theorems": [
    "Eni.Props.C99_reverse",
    "Eni.Props.C99_scrypt",
    "Eni.Props.C99_encrypt",
    "Eni.Props.C99_decrypt",
    "Eni.Props.C99_json",
    "Eni.Props.C99_texts",
    "Eni.Props.C99_scrypt_text",
    "Eni.Props.C99_rsa"
   ],
   "note": "Keys of more than 65535 bytes excluded (a StringMap stores 16 bits of their length). The resources of OpenSSL are C87."
  }
 ]
}