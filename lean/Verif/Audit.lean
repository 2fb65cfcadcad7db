import Verif.Props.HashTable
import Verif.Props.StringMap
import Verif.Props.Vector
import Verif.Props.Json
import Verif.Props.JsonOwner
import Verif.Props.EniBase
import Verif.Props.Reverse
import Verif.Props.Scrypt
import Verif.Props.Crypto
import Verif.Props.JsonTool
import Verif.Props.Cli
import Verif.Props.OpArgs
import Verif.Props.Consensus
import Verif.Props.VectorIter
import Verif.Props.Hasher
import Verif.Props.JsonPrint
import Verif.Props.JsonDepth
import Verif.Props.HashLimits
import Verif.Props.HashErase
import Verif.Props.HashIterLaws
import Verif.Props.HashAlloc
import Verif.Props.StringEntry
import Verif.Props.HashCost
import Verif.Props.CryptoRes
import Verif.Props.Tools
import Verif.Props.OwnerCount
import Verif.Props.ParserMem
import Verif.Props.EniMem
import Verif.Props.Session
import Verif.Props.ScanCost
import Verif.Props.HashArrays
import Verif.Props.OpsMem
import Verif.Props.Allocator
import Verif.Props.HashLoop
import Verif.Props.Gas
import Verif.Props.JsonToolSafe
import Verif.Props.VectorObj
import Verif.Props.PrintCount
import Verif.Props.ProbeCost
import Verif.Props.Docs
import Verif.Props.EniTypes
import Verif.Props.EntryAlloc
import Verif.Props.PrintMem
import Verif.Props.CharSign
import Verif.Props.OneDef
import Verif.Props.VectorThrow
import Verif.Props.HashThrow
import Verif.Props.Catch
import Verif.Props.CryptoLen
import Verif.Props.Overload
import Verif.Props.PrintStream
import Verif.Props.HashVary
import Verif.Props.VectorReserve
import Verif.Props.ScryptWork
import Verif.Props.OwnerArray
import Verif.Props.OwnerKind
import Verif.Props.VectorCapacity
import Verif.Props.ConsensusReport
import Verif.Props.RsaWork
import Verif.Props.PrintValue
import Verif.Props.Promise
import Verif.Props.ConsensusFile
import Verif.Props.ConsensusShipped
import Verif.Props.TestLib
import Verif.Props.Vectors
import Verif.Props.DocsUnquoted
import Verif.Props.ConsensusReadf
import Verif.Props.ConsensusGen
import Verif.Props.PyDumps
import Verif.Props.JsonTests
/-!
# Axioms used by every theorem named in MANIFEST.json
-/
#print axioms Eni.Props.C01_finite_map
#print axioms Eni.Props.C01_limits
#print axioms Eni.Props.C02_always_returns
#print axioms Eni.Props.C02_find_bound
#print axioms Eni.Props.C02_insert_bound
#print axioms Eni.Props.C02_rehash_bound
#print axioms Eni.Props.C03_iteration
#print axioms Eni.Props.C03_end_throws
#print axioms Eni.Props.C04_pointer_stability
#print axioms Eni.Props.C05_load
#print axioms Eni.Props.C05_counters
#print axioms Eni.Props.C06_copy_independent
#print axioms Eni.Props.C06_programs
#print axioms Eni.Props.C07_copy_of_null_false
#print axioms Eni.Props.C07_copy_after_clear_false
#print axioms Eni.Props.C07_copy_usable_partial
#print axioms Eni.Props.C08_self_assignment_false
#print axioms Eni.Props.C09_count
#print axioms Eni.Props.C09_count_partial
#print axioms Eni.Props.C09_count_false
#print axioms Eni.Props.C10_no_leak
#print axioms Eni.Props.C10_programs
#print axioms Eni.Props.C10_programs_iff
#print axioms Eni.Props.C10_programs_partial
#print axioms Eni.Props.C10_assign_leaks_false
#print axioms Eni.Props.C100_programs_partial
#print axioms Eni.Props.C100_room_iff
#print axioms Eni.Props.C100_wrap_false
#print axioms Eni.Props.C100_null
#print axioms Eni.Props.C100_void_false
#print axioms Eni.Props.C100_entry_partial
#print axioms Eni.Props.C100_entry_false
#print axioms Eni.Props.C101_ends_partial
#print axioms Eni.Props.C101_value
#print axioms Eni.Props.C101_endless_false
#print axioms Eni.Props.C101_es
#print axioms Eni.Props.C102_reverse
#print axioms Eni.Props.C102_json
#print axioms Eni.Props.C102_encrypt
#print axioms Eni.Props.C102_decrypt
#print axioms Eni.Props.C102_scrypt
#print axioms Eni.Props.C103_reverse_partial
#print axioms Eni.Props.C103_reverse_false
#print axioms Eni.Props.C103_scrypt_false
#print axioms Eni.Props.C103_encrypt_false
#print axioms Eni.Props.C103_json_false
#print axioms Eni.Props.C103_memory_false
#print axioms Eni.Props.C104_string_partial
#print axioms Eni.Props.C104_array_partial
#print axioms Eni.Props.C104_object_partial
#print axioms Eni.Props.C104_string_false
#print axioms Eni.Props.C104_array_false
#print axioms Eni.Props.C104_key_false
#print axioms Eni.Props.C105_ordinary_partial
#print axioms Eni.Props.C105_blind_partial
#print axioms Eni.Props.C105_growth_false
#print axioms Eni.Props.C105_first_element_false
#print axioms Eni.Props.C105_construct_false
#print axioms Eni.Props.C105_move_false
#print axioms Eni.Props.C105_destroy_false
#print axioms Eni.Props.C106_print_partial
#print axioms Eni.Props.C106_print_false
#print axioms Eni.Props.C106_parsed_partial
#print axioms Eni.Props.C107_same
#print axioms Eni.Props.C107_insert_partial
#print axioms Eni.Props.C107_bound_partial
#print axioms Eni.Props.C107_collisions
#print axioms Eni.Props.C107_crowd_false
#print axioms Eni.Props.C107_linear_false
#print axioms Eni.Props.C107_gigabyte_false
#print axioms Eni.Props.C108_run_partial
#print axioms Eni.Props.C108_reverse_false
#print axioms Eni.Props.C108_scrypt_false
#print axioms Eni.Props.C108_rsa_false
#print axioms Eni.Props.C108_unquoted_false
#print axioms Eni.Props.C108_guide_partial
#print axioms Eni.Props.C108_guide_false
#print axioms Eni.Props.C109_unsigned
#print axioms Eni.Props.C109_stored
#print axioms Eni.Props.C109_signed
#print axioms Eni.Props.C109_bool
#print axioms Eni.Props.C11_string_map
#print axioms Eni.Props.C110_granted
#print axioms Eni.Props.C110_run_partial
#print axioms Eni.Props.C110_run_false
#print axioms Eni.Props.C110_gas_false
#print axioms Eni.Props.C111_arguments
#print axioms Eni.Props.C112_program
#print axioms Eni.Props.C112_parsed
#print axioms Eni.Props.C112_plain
#print axioms Eni.Props.C112_round_trip
#print axioms Eni.Props.C113_scanner
#print axioms Eni.Props.C113_signed
#print axioms Eni.Props.C113_parse
#print axioms Eni.Props.C113_entry
#print axioms Eni.Props.C113_short
#print axioms Eni.Props.C113_shipped
#print axioms Eni.Props.C113_json
#print axioms Eni.Props.C113_hashers_partial
#print axioms Eni.Props.C113_decrypt_partial
#print axioms Eni.Props.C113_hashers_false
#print axioms Eni.Props.C113_print_false
#print axioms Eni.Props.C113_decrypt_false
#print axioms Eni.Props.C114_accepted
#print axioms Eni.Props.C114_exact_partial
#print axioms Eni.Props.C114_one_part_partial
#print axioms Eni.Props.C114_linked_partial
#print axioms Eni.Props.C114_escape_false
#print axioms Eni.Props.C115_exact_partial
#print axioms Eni.Props.C115_empty_partial
#print axioms Eni.Props.C115_elements_partial
#print axioms Eni.Props.C115_objects_partial
#print axioms Eni.Props.C115_resize
#print axioms Eni.Props.C115_push_false
#print axioms Eni.Props.C115_removed_false
#print axioms Eni.Props.C115_insert_false
#print axioms Eni.Props.C115_erase_false
#print axioms Eni.Props.C115_pop_false
#print axioms Eni.Props.C116_few_partial
#print axioms Eni.Props.C116_copy
#print axioms Eni.Props.C116_three_false
#print axioms Eni.Props.C116_count_false
#print axioms Eni.Props.C116_assign_false
#print axioms Eni.Props.C117_reference
#print axioms Eni.Props.C117_unheard
#print axioms Eni.Props.C117_copies_partial
#print axioms Eni.Props.C117_copied_memory_false
#print axioms Eni.Props.C117_distinct
#print axioms Eni.Props.C117_vector
#print axioms Eni.Props.C117_map
#print axioms Eni.Props.C118_exact_partial
#print axioms Eni.Props.C118_main_partial
#print axioms Eni.Props.C118_first_false
#print axioms Eni.Props.C119_exact_partial
#print axioms Eni.Props.C119_long_partial
#print axioms Eni.Props.C119_short
#print axioms Eni.Props.C119_negative
#print axioms Eni.Props.C119_tail_false
#print axioms Eni.Props.C12_long_key_false
#print axioms Eni.Props.C12_assigned_found_partial
#print axioms Eni.Props.C120_exact_partial
#print axioms Eni.Props.C120_refused
#print axioms Eni.Props.C120_pointer_false
#print axioms Eni.Props.C120_literal_false
#print axioms Eni.Props.C120_enumerator_false
#print axioms Eni.Props.C120_null_value
#print axioms Eni.Props.C121_exact_partial
#print axioms Eni.Props.C121_small_partial
#print axioms Eni.Props.C121_wrap_false
#print axioms Eni.Props.C121_float_false
#print axioms Eni.Props.C121_enum_partial
#print axioms Eni.Props.C121_vector
#print axioms Eni.Props.C121_key
#print axioms Eni.Props.C122_plain_partial
#print axioms Eni.Props.C122_text_partial
#print axioms Eni.Props.C122_width_false
#print axioms Eni.Props.C122_number_false
#print axioms Eni.Props.C122_radix
#print axioms Eni.Props.C122_bad
#print axioms Eni.Props.C122_fresh
#print axioms Eni.Props.C123_pairs
#print axioms Eni.Props.C123_released
#print axioms Eni.Props.C123_orphan
#print axioms Eni.Props.C124_core
#print axioms Eni.Props.C124_pbkdf2
#print axioms Eni.Props.C124_work
#print axioms Eni.Props.C124_price_false
#print axioms Eni.Props.C124_bound_partial
#print axioms Eni.Props.C125_programs_partial
#print axioms Eni.Props.C125_assign_partial
#print axioms Eni.Props.C125_exact_partial
#print axioms Eni.Props.C125_part_false
#print axioms Eni.Props.C125_object_false
#print axioms Eni.Props.C125_clear_leaks_false
#print axioms Eni.Props.C126_programs_partial
#print axioms Eni.Props.C126_kind_partial
#print axioms Eni.Props.C126_mixed_false
#print axioms Eni.Props.C126_destroy_false
#print axioms Eni.Props.C126_revived_false
#print axioms Eni.Props.C126_null_false
#print axioms Eni.Props.C127_capacity
#print axioms Eni.Props.C127_within_capacity
#print axioms Eni.Props.C127_beyond_capacity
#print axioms Eni.Props.C128_report
#print axioms Eni.Props.C128_visible_partial
#print axioms Eni.Props.C128_trailing_false
#print axioms Eni.Props.C128_embedded_false
#print axioms Eni.Props.C129_method
#print axioms Eni.Props.C129_least
#print axioms Eni.Props.C129_price
#print axioms Eni.Props.C129_same_false
#print axioms Eni.Props.C129_factor_false
#print axioms Eni.Props.C129_limits_false
#print axioms Eni.Props.C129_bound_partial
#print axioms Eni.Props.C13_elf_pjw_range
#print axioms Eni.Props.C13_es_total
#print axioms Eni.Props.C130_bytes
#print axioms Eni.Props.C130_digits
#print axioms Eni.Props.C130_plain_partial
#print axioms Eni.Props.C130_address_false
#print axioms Eni.Props.C130_stale_false
#print axioms Eni.Props.C130_moved_false
#print axioms Eni.Props.C131_reverse
#print axioms Eni.Props.C131_json
#print axioms Eni.Props.C131_scrypt
#print axioms Eni.Props.C131_encrypt_partial
#print axioms Eni.Props.C131_decrypt_partial
#print axioms Eni.Props.C131_encrypt_false
#print axioms Eni.Props.C131_decrypt_false
#print axioms Eni.Props.C131_rsa_false
#print axioms Eni.Props.C131_1500_false
#print axioms Eni.Props.C131_limits
#print axioms Eni.Props.C132_reverse
#print axioms Eni.Props.C132_encrypt
#print axioms Eni.Props.C132_decrypt
#print axioms Eni.Props.C132_scrypt_false
#print axioms Eni.Props.C132_chance
#print axioms Eni.Props.C132_hex
#print axioms Eni.Props.C133_passes
#print axioms Eni.Props.C133_sound
#print axioms Eni.Props.C133_line_partial
#print axioms Eni.Props.C133_tool_partial
#print axioms Eni.Props.C133_script
#print axioms Eni.Props.C133_status_false
#print axioms Eni.Props.C133_bytes_false
#print axioms Eni.Props.C134_exact
#print axioms Eni.Props.C134_documented
#print axioms Eni.Props.C134_reported_partial
#print axioms Eni.Props.C134_colon_false
#print axioms Eni.Props.C134_negative_false
#print axioms Eni.Props.C135_exact
#print axioms Eni.Props.C135_ascii_partial
#print axioms Eni.Props.C135_string
#print axioms Eni.Props.C135_utf8_false
#print axioms Eni.Props.C135_collision_false
#print axioms Eni.Props.C135_int
#print axioms Eni.Props.C135_printable
#print axioms Eni.Props.C135_parse
#print axioms Eni.Props.C135_parse_false
#print axioms Eni.Props.C135_operation
#print axioms Eni.Props.C135_reverse
#print axioms Eni.Props.C135_positions_partial
#print axioms Eni.Props.C135_positions_false
#print axioms Eni.Props.C136_range
#print axioms Eni.Props.C136_token
#print axioms Eni.Props.C136_ranges
#print axioms Eni.Props.C136_ranges_partial
#print axioms Eni.Props.C136_extra_false
#print axioms Eni.Props.C136_prefix_false
#print axioms Eni.Props.C14_may_include_iff
#print axioms Eni.Props.C14_substring_partial
#print axioms Eni.Props.C14_substring_false
#print axioms Eni.Props.C15_rehash_small_false
#print axioms Eni.Props.C15_rehash_exact_false
#print axioms Eni.Props.C15_rehash_partial
#print axioms Eni.Props.C16_vector_is_sequence
#print axioms Eni.Props.C16_vector_is_sequence_granted
#print axioms Eni.Props.C17_checked_access
#print axioms Eni.Props.C18_erase_to_end_false
#print axioms Eni.Props.C18_erase_partial
#print axioms Eni.Props.C19_push_back_own_false
#print axioms Eni.Props.C19_insert_own_false
#print axioms Eni.Props.C19_own_element_partial
#print axioms Eni.Props.C20_reserve_diverges_false
#print axioms Eni.Props.C20_loop_bound_adequate
#print axioms Eni.Props.C20_reserve_wraps_false
#print axioms Eni.Props.C20_reserve_destroys_false
#print axioms Eni.Props.C20_length_error_unreachable
#print axioms Eni.Props.C20_reserve_partial
#print axioms Eni.Props.C20_exact_partial
#print axioms Eni.Props.C20_huge_false
#print axioms Eni.Props.C21_allocation_failure
#print axioms Eni.Props.C16_vector_is_sequence
#print axioms Eni.Props.C22_iterator_laws
#print axioms Eni.Props.C22_iterator_comparable
#print axioms Eni.Props.C22_iterator_index
#print axioms Eni.Props.C23_total
#print axioms Eni.Props.C23_scanner_total
#print axioms Eni.Props.C24_sound
#print axioms Eni.Props.C24_complete
#print axioms Eni.Props.C24_complete_noMembers
#print axioms Eni.Props.C24_unambiguous
#print axioms Eni.Props.C25_layout_false
#print axioms Eni.Props.C25_layout_partial
#print axioms Eni.Props.C25_no_letters_partial
#print axioms Eni.Props.C25_boolean_free_partial
#print axioms Eni.Props.C26_string_round_trip
#print axioms Eni.Props.C27_objects_false
#print axioms Eni.Props.C27_round_trip_partial
#print axioms Eni.Props.C27_object_free_partial
#print axioms Eni.Props.C28_integers
#print axioms Eni.Props.C28_print
#print axioms Eni.Props.C29_members
#print axioms Eni.Props.C30_array
#print axioms Eni.Props.C30_object
#print axioms Eni.Props.C30_parsed_object
#print axioms Eni.Props.C31_root
#print axioms Eni.Props.C32_trailing_false
#print axioms Eni.Props.C32_reject_partial
#print axioms Eni.Props.C33_other_kinds_false
#print axioms Eni.Props.C33_array_partial
#print axioms Eni.Props.C33_object_partial
#print axioms Eni.Props.C34_values_partial
#print axioms Eni.Props.C34_next_partial
#print axioms Eni.Props.C34_delegate
#print axioms Eni.Props.C34_assign_whole_to_part_false
#print axioms Eni.Props.C34_push_back_self_false
#print axioms Eni.Props.C34_member_self_false
#print axioms Eni.Props.C34_push_back_own_element_false
#print axioms Eni.Props.C35_escape
#print axioms Eni.Props.C35_above_7f_false
#print axioms Eni.Props.C35_ascii_partial
#print axioms Eni.Props.C36_returns_once
#print axioms Eni.Props.C36_once_partial
#print axioms Eni.Props.C36_throwing_false
#print axioms Eni.Props.C37_rejected
#print axioms Eni.Props.C37_accepted
#print axioms Eni.Props.C38_complete
#print axioms Eni.Props.C38_entry
#print axioms Eni.Props.C39_outcomes
#print axioms Eni.Props.C39_not_array_false
#print axioms Eni.Props.C39_array_partial
#print axioms Eni.Props.C40_accumulates_false
#print axioms Eni.Props.C40_idempotent_partial
#print axioms Eni.Props.C41_function
#print axioms Eni.Props.C41_no_letters
#print axioms Eni.Props.C41_layout
#print axioms Eni.Props.C42_reverse
#print axioms Eni.Props.C42_involution
#print axioms Eni.Props.C43_accepts
#print axioms Eni.Props.C43_run
#print axioms Eni.Props.C43_rejects
#print axioms Eni.Props.C43_unchecked_false
#print axioms Eni.Props.C44_scrypt
#print axioms Eni.Props.C44_entry
#print axioms Eni.Props.C45_hmac
#print axioms Eni.Props.C45_pbkdf2_partial
#print axioms Eni.Props.C45_last_count_false
#print axioms Eni.Props.C46_denotation
#print axioms Eni.Props.C46_notations
#print axioms Eni.Props.C46_output
#print axioms Eni.Props.C46_gas
#print axioms Eni.Props.C47_bytes
#print axioms Eni.Props.C47_length
#print axioms Eni.Props.C47_digits_partial
#print axioms Eni.Props.C47_upper_case_false
#print axioms Eni.Props.C48_outcome
#print axioms Eni.Props.C48_partial
#print axioms Eni.Props.C48_nul_false
#print axioms Eni.Props.C48_full_length_false
#print axioms Eni.Props.C48_refused_false
#print axioms Eni.Props.C48_long_false
#print axioms Eni.Props.C49_tokens
#print axioms Eni.Props.C49_array
#print axioms Eni.Props.C49_json
#print axioms Eni.Props.C49_entry
#print axioms Eni.Props.C50_object
#print axioms Eni.Props.C50_json
#print axioms Eni.Props.C50_entry
#print axioms Eni.Props.C51_encode
#print axioms Eni.Props.C51_lossless
#print axioms Eni.Props.C52_partial
#print axioms Eni.Props.C52_false
#print axioms Eni.Props.C53_iff
#print axioms Eni.Props.C54_gas
#print axioms Eni.Props.C54_run
#print axioms Eni.Props.C54_output_partial
#print axioms Eni.Props.C54_parse_error_false
#print axioms Eni.Props.C54_delete_false
#print axioms Eni.Props.C55_one_string_partial
#print axioms Eni.Props.C55_two_strings_partial
#print axioms Eni.Props.C55_json_partial
#print axioms Eni.Props.C55_missing_false
#print axioms Eni.Props.C55_type_false
#print axioms Eni.Props.C55_entry_false
#print axioms Eni.Props.C55_json_false
#print axioms Eni.Props.C56_success
#print axioms Eni.Props.C56_partial
#print axioms Eni.Props.C56_utf8_false
#print axioms Eni.Props.C57_area
#print axioms Eni.Props.C57_tight
#print axioms Eni.Props.C57_accesses
#print axioms Eni.Props.C57_exact
#print axioms Eni.Props.C57_less
#print axioms Eni.Props.C58_copy_partial
#print axioms Eni.Props.C58_assignment_false
#print axioms Eni.Props.C58_copy_of_empty_false
#print axioms Eni.Props.C59_concat
#print axioms Eni.Props.C59_collisions_extend
#print axioms Eni.Props.C60_constructor_refusal_false
#print axioms Eni.Props.C60_constructors_partial
#print axioms Eni.Props.C61_growth_false
#print axioms Eni.Props.C61_reserved_partial
#print axioms Eni.Props.C62_strings
#print axioms Eni.Props.C62_object_free_partial
#print axioms Eni.Props.C62_objects_false
#print axioms Eni.Props.C63_exact_partial
#print axioms Eni.Props.C63_clean_iff_partial
#print axioms Eni.Props.C63_destroy_partial
#print axioms Eni.Props.C63_array_partial
#print axioms Eni.Props.C63_erase_partial
#print axioms Eni.Props.C63_number_leaks_false
#print axioms Eni.Props.C63_elements_leak_false
#print axioms Eni.Props.C63_assignment_leaks_false
#print axioms Eni.Props.C64_encrypt
#print axioms Eni.Props.C64_entry_partial
#print axioms Eni.Props.C64_size
#print axioms Eni.Props.C65_array
#print axioms Eni.Props.C65_object
#print axioms Eni.Props.C65_entry
#print axioms Eni.Props.C66_reverse
#print axioms Eni.Props.C67_script
#print axioms Eni.Props.C67_difference
#print axioms Eni.Props.C67_file_partial
#print axioms Eni.Props.C67_run
#print axioms Eni.Props.C67_twice_false
#print axioms Eni.Props.C67_missed_false
#print axioms Eni.Props.C67_shipped_false
#print axioms Eni.Props.C68_partial
#print axioms Eni.Props.C68_random
#print axioms Eni.Props.C68_readf
#print axioms Eni.Props.C68_file
#print axioms Eni.Props.C68_quote_false
#print axioms Eni.Props.C68_file_false
#print axioms Eni.Props.C69_insert
#print axioms Eni.Props.C69_insert_range
#print axioms Eni.Props.C69_erase_partial
#print axioms Eni.Props.C69_erase_one_partial
#print axioms Eni.Props.C69_erase_end_false
#print axioms Eni.Props.C69_erase_empty_false
#print axioms Eni.Props.C69_stale
#print axioms Eni.Props.C70_assign
#print axioms Eni.Props.C70_insert_partial
#print axioms Eni.Props.C70_insert_grow_false
#print axioms Eni.Props.C70_insert_shifted_false
#print axioms Eni.Props.C71_effect_partial
#print axioms Eni.Props.C71_leak_false
#print axioms Eni.Props.C72_separates_partial
#print axioms Eni.Props.C72_bp_false
#print axioms Eni.Props.C72_js_ap_false
#print axioms Eni.Props.C73_layout_partial
#print axioms Eni.Props.C73_documented_false
#print axioms Eni.Props.C74_no_members_partial
#print axioms Eni.Props.C74_object_free_partial
#print axioms Eni.Props.C74_objects_false
#print axioms Eni.Props.C75_single_partial
#print axioms Eni.Props.C75_order_partial
#print axioms Eni.Props.C75_order_false
#print axioms Eni.Props.C76_levels_partial
#print axioms Eni.Props.C76_brackets_partial
#print axioms Eni.Props.C76_bounded_false
#print axioms Eni.Props.C77_sizes_partial
#print axioms Eni.Props.C77_no_buckets_false
#print axioms Eni.Props.C77_negative_index_false
#print axioms Eni.Props.C78_grows_partial
#print axioms Eni.Props.C78_stuck_false
#print axioms Eni.Props.C79_erase_partial
#print axioms Eni.Props.C79_rehash_false
#print axioms Eni.Props.C80_sweep_partial
#print axioms Eni.Props.C80_rehash_false
#print axioms Eni.Props.C81_equality
#print axioms Eni.Props.C81_iteration
#print axioms Eni.Props.C82_chain_partial
#print axioms Eni.Props.C82_equality
#print axioms Eni.Props.C82_absent_false
#print axioms Eni.Props.C83_partial
#print axioms Eni.Props.C83_constructor_partial
#print axioms Eni.Props.C83_insert_false
#print axioms Eni.Props.C83_rehash_false
#print axioms Eni.Props.C83_constructor_false
#print axioms Eni.Props.C83_copy_empty
#print axioms Eni.Props.C84_storage
#print axioms Eni.Props.C84_tight
#print axioms Eni.Props.C85_partial
#print axioms Eni.Props.C85_scalar_false
#print axioms Eni.Props.C86_partial
#print axioms Eni.Props.C86_growth_false
#print axioms Eni.Props.C86_reserve_false
#print axioms Eni.Props.C87_keys_partial
#print axioms Eni.Props.C87_answers
#print axioms Eni.Props.C87_functions_false
#print axioms Eni.Props.C87_overwrite_false
#print axioms Eni.Props.C87_copy_false
#print axioms Eni.Props.C87_encrypt_false
#print axioms Eni.Props.C87_decrypt_false
#print axioms Eni.Props.C87_run_false
#print axioms Eni.Props.C87_throw_false
#print axioms Eni.Props.C88_tools
#print axioms Eni.Props.C88_not_json
#print axioms Eni.Props.C88_not_array_false
#print axioms Eni.Props.C89_scrypt
#print axioms Eni.Props.C89_rsa_partial
#print axioms Eni.Props.C89_json
#print axioms Eni.Props.C90_safe
#print axioms Eni.Props.C90_value
#print axioms Eni.Props.C90_sound
#print axioms Eni.Props.C90_agrees
#print axioms Eni.Props.C90_tree
#print axioms Eni.Props.C91_iff_partial
#print axioms Eni.Props.C91_amount_partial
#print axioms Eni.Props.C91_string_argument_false
#print axioms Eni.Props.C92_bound_partial
#print axioms Eni.Props.C92_quadratic_false
#print axioms Eni.Props.C92_linear_false
#print axioms Eni.Props.C93_calls
#print axioms Eni.Props.C93_text
#print axioms Eni.Props.C93_others
#print axioms Eni.Props.C93_terminated
#print axioms Eni.Props.C93_agrees
#print axioms Eni.Props.C93_reverse
#print axioms Eni.Props.C94_amount_partial
#print axioms Eni.Props.C94_iff_partial
#print axioms Eni.Props.C94_reverse_false
#print axioms Eni.Props.C94_throw_false
#print axioms Eni.Props.C95_independent
#print axioms Eni.Props.C95_calls
#print axioms Eni.Props.C96_sum_partial
#print axioms Eni.Props.C96_repeat_partial
#print axioms Eni.Props.C96_reverse_false
#print axioms Eni.Props.C96_clean_partial
#print axioms Eni.Props.C97_same
#print axioms Eni.Props.C97_linear
#print axioms Eni.Props.C97_honest
#print axioms Eni.Props.C97_rest
#print axioms Eni.Props.C98_programs
#print axioms Eni.Props.C98_iff
#print axioms Eni.Props.C98_released_partial
#print axioms Eni.Props.C98_move_false
#print axioms Eni.Props.C99_reverse
#print axioms Eni.Props.C99_scrypt
#print axioms Eni.Props.C99_encrypt
#print axioms Eni.Props.C99_decrypt
#print axioms Eni.Props.C99_json
#print axioms Eni.Props.C99_texts
#print axioms Eni.Props.C99_scrypt_text
#print axioms Eni.Props.C99_rsa
