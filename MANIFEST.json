{
 "claims": [
  {
   "property": "C01",
   "status": "proved",
   "theorems": [
    "Ulam.Leximited.C01_unsigned_prefix_free",
    "Ulam.Leximited.C01_signed32_prefix_free",
    "Ulam.Leximited.C01_signed64_prefix_free",
    "Ulam.Leximited.C01_string_prefix_free",
    "Ulam.Leximited.C01_string_sequences",
    "Ulam.Leximited.C01_short_form"
   ],
   "note": "Prefix-freeness and unique decodability of all leximited encodings, any length."
  },
  {
   "property": "C02",
   "status": "proved",
   "theorems": [
    "Ulam.Mangle.C02_mangled_type_prefix_free",
    "Ulam.Mangle.C02_mangled_name_injective",
    "Ulam.Mangle.C02_class_type_prefix_free",
    "Ulam.Mangle.C02_class_type_differs",
    "Ulam.Mangle.C02_unknown_size_collides"
   ],
   "note": "Names of non-class types are uniquely decodable; class types likewise, and never collide with non-class types. Unknown array size (-2) is outside (witness proved)."
  },
  {
   "property": "C03",
   "status": "partial",
   "theorems": [
    "Ulam.Mangle.C03_mangled_function_injective_partial",
    "Ulam.Mangle.C03_name_exists",
    "Ulam.Mangle.C03_overloads_collide"
   ],
   "note": "Injective in name and parameter types unless a parameter class has an argument that is a class value of 8 or more bits or an empty string (collision proved)."
  },
  {
   "property": "C04",
   "status": "partial",
   "theorems": [
    "Ulam.Mangle.C04_key_exists",
    "Ulam.Mangle.C04_key_iff_same_arguments_partial",
    "Ulam.Mangle.C04_key_iff_same_types_partial",
    "Ulam.Mangle.C04_reference_key_differs",
    "Ulam.Mangle.C04_class_values_collide",
    "Ulam.Mangle.C04_string_arrays_collide"
   ],
   "note": "Equal keys iff equal arguments, except class values of 8 or more bits and arrays containing empty strings (collisions proved); for scalars of the same declared types empty strings are covered."
  },
  {
   "property": "C05",
   "status": "proved",
   "theorems": [
    "Ulam.Strto64.C05_signed_literal_exact"
   ],
   "note": "Exact for every ASCII literal: accepted with v iff well formed, denotes v, in range."
  },
  {
   "property": "C06",
   "status": "partial",
   "theorems": [
    "Ulam.Strto64.C06_unsigned_literal_exact_partial",
    "Ulam.Strto64.C06_negative_literal_behaviour",
    "Ulam.Strto64.C06_negative_accepted"
   ],
   "note": "Exact except that a leading minus sign is accepted and negated modulo 2^64 (C06_negative_accepted shows it)."
  },
  {
   "property": "C07",
   "status": "proved",
   "theorems": [
    "Ulam.Types.C07_implicit_cast_preserves",
    "Ulam.Types.C07_numeric_cast_exact",
    "Ulam.Types.C07_arrays_and_references"
   ],
   "note": "Accepted casts preserve every value; between Int/Unsigned/Unary the rule is exact."
  },
  {
   "property": "C08",
   "status": "partial",
   "theorems": [
    "Ulam.Types.C08_reflexive",
    "Ulam.Types.C08_transitive_partial",
    "Ulam.Types.C08_not_transitive",
    "Ulam.Types.C08_not_transitive_bool"
   ],
   "note": "Reflexive; transitive except Unary/Bool to Bits through another type and const refs (counterexamples proved)."
  },
  {
   "property": "C09",
   "status": "partial",
   "theorems": [
    "Ulam.Types.C09_result_fits_partial",
    "Ulam.Types.C09_result_size_within_word",
    "Ulam.Types.C09_unsigned_difference_does_not_fit",
    "Ulam.Types.C09_quotient_does_not_fit"
   ],
   "note": "Holds below the word size except unsigned differences and most-negative / -1 (counterexamples proved)."
  },
  {
   "property": "C10",
   "status": "partial",
   "theorems": [
    "Ulam.Types.C10_shift_left_size_partial",
    "Ulam.Types.C10_negative_size",
    "Ulam.Types.C10_undefined_shift"
   ],
   "note": "Holds for shift amounts of at most 30 bits; 31 bits gives a negative size and 32 bits with a 64-bit word is undefined (proved)."
  },
  {
   "property": "C11",
   "status": "partial",
   "theorems": [
    "Ulam.Types.C11_unsigned_least",
    "Ulam.Types.C11_signed_fits",
    "Ulam.Types.C11_signed_least_partial",
    "Ulam.Types.C11_signed_not_least",
    "Ulam.Types.C11_unary_least"
   ],
   "note": "Fits always; least except zero and negative powers of two (counterexample proved)."
  },
  {
   "property": "C12",
   "status": "proved",
   "theorems": [
    "Ulam.Layout.C12_members_disjoint",
    "Ulam.Layout.C12_union"
   ],
   "note": "Non-unions: consecutive from 0, no gaps, end at the size; unions: all at 0, size is the largest. Sizes below 2^32 bits."
  },
  {
   "property": "C13",
   "status": "proved",
   "theorems": [
    "Ulam.Walker.C13_visits_each_ancestor_once",
    "Ulam.Walker.C13_only_through_bases"
   ],
   "note": "All graphs, both orders, cyclic graphs included; also that each class is reached through a base already handled."
  },
  {
   "property": "C14",
   "status": "proved",
   "theorems": [
    "Ulam.Walker.C14_subclass_iff_ancestor",
    "Ulam.Walker.C14_strict_order",
    "Ulam.Walker.C14_direct_ancestor",
    "Ulam.Walker.C14_by_name",
    "Ulam.Walker.C14_shared_tally",
    "Ulam.Walker.C14_nearest"
   ],
   "note": "Acyclic graphs; also the direct test, the search by name, the tally of shared bases and the nearest-base search. Type comparison is modelled as equality of root types."
  },
  {
   "property": "C15",
   "status": "partial",
   "theorems": [
    "Ulam.Layout.C15_layout_partial",
    "Ulam.Layout.C15_union_overlaps_bases",
    "Ulam.Layout.C15_duplicate_refused",
    "Ulam.Layout.C15_query"
   ],
   "note": "Proved for classes that are not unions; a union's bases are laid over its members (witness proved)."
  },
  {
   "property": "C16",
   "status": "partial",
   "theorems": [
    "Ulam.Virtual.C16_slots_are_stable",
    "Ulam.Virtual.C16_slots_are_apart",
    "Ulam.Virtual.C16_override_keeps_slot",
    "Ulam.Virtual.C16_most_specific_partial",
    "Ulam.Virtual.C16_completes",
    "Ulam.Virtual.C16_conflicts_are_reported",
    "Ulam.Virtual.C16_two_beginnings"
   ],
   "note": "Tables of virtual functions for whole programs: stable slots, override keeps slot, dispatch reaches a most specific override (partial: only if the function begins in one class as seen from the object's class; C16_two_beginnings is a counterexample otherwise, not reported by the compiler), errors reported exactly for conflicts, passes complete."
  },
  {
   "property": "C17",
   "status": "partial",
   "theorems": [
    "Ulam.Overload.C17_order_independent",
    "Ulam.Overload.C17_chosen_is_applicable",
    "Ulam.Overload.C17_best_of_class",
    "Ulam.Overload.C17_exact_in_class_wins",
    "Ulam.Overload.C17_exact_wins_partial",
    "Ulam.Overload.C17_only_candidate",
    "Ulam.Overload.C17_exact_can_lose",
    "Ulam.Overload.C17_ambiguity_can_hide"
   ],
   "note": "Full search over a class hierarchy, for arbitrary type tables and argument nodes. Exact match wins proved when it is in the class itself or the only exact one; C17_exact_can_lose and C17_ambiguity_can_hide show what fails otherwise."
  },
  {
   "property": "C18",
   "status": "proved",
   "theorems": [
    "Ulam.Strings.C18_interning",
    "Ulam.Strings.C18_stable"
   ],
   "note": "All histories of fewer than 2^32 requests."
  },
  {
   "property": "C19",
   "status": "proved",
   "theorems": [
    "Ulam.Strings.C19_table",
    "Ulam.Strings.C19_index_check_too_weak"
   ],
   "note": "All histories whose table stays below 2^32 bytes; C19_index_check_too_weak records that the compiler's index check accepts too much."
  },
  {
   "property": "C20",
   "status": "proved",
   "theorems": [
    "Ulam.Strings.C20_emitted_literal"
   ],
   "note": "Every string of at most 255 bytes, whatever text follows."
  },
  {
   "property": "C21",
   "status": "proved",
   "theorems": [
    "Ulam.Strings.C21_item",
    "Ulam.Strings.C21_string_literal",
    "Ulam.Strings.C21_unambiguous",
    "Ulam.Strings.C21_every_string",
    "Ulam.Strings.C21_too_long",
    "Ulam.Strings.C21_octal_out_of_range",
    "Ulam.Strings.C21_char_literal"
   ],
   "note": "Acceptance characterised exactly by a grammar; every string writable; limits rejected."
  },
  {
   "property": "C22",
   "status": "proved",
   "theorems": [
    "Ulam.Lexer.C22_terminates",
    "Ulam.Lexer.C22_eof_at_end",
    "Ulam.Lexer.C22_early_eof",
    "Ulam.Lexer.C22_put_back"
   ],
   "note": "Every request, every byte string. Byte 255 is answered as end of file although input remains (C22_early_eof)."
  },
  {
   "property": "C23",
   "status": "partial",
   "theorems": [
    "Ulam.Lexer.C23_line_program",
    "Ulam.Lexer.C23_line_at_end",
    "Ulam.Lexer.C23_block_program_partial",
    "Ulam.Lexer.C23_after_doc_partial",
    "Ulam.Lexer.C23_slash_after_doc",
    "Ulam.Lexer.C23_line",
    "Ulam.Lexer.C23_block_partial",
    "Ulam.Lexer.C23_adjacent",
    "Ulam.Lexer.C23_after_star"
   ],
   "note": "Proved for whole programs, for line comments and plain block comments at any place between two tokens (after a token and white space, or after a structured comment and white space). Not transparent, by C23_adjacent, C23_after_star, C23_slash_after_doc: a comment directly after a block comment or after a star, a slash after a structured comment. After a slash the comment's own slash makes a line comment, which is left out. Structured comments are tokens."
  },
  {
   "property": "C24",
   "status": "partial",
   "theorems": [
    "Ulam.Lexer.C24_lookahead",
    "Ulam.Lexer.C24_identifier",
    "Ulam.Lexer.C24_keyword",
    "Ulam.Lexer.C24_operator_partial",
    "Ulam.Lexer.C24_two_dots",
    "Ulam.Lexer.C24_shift_at_end",
    "Ulam.Lexer.C24_ellipsis",
    "Ulam.Lexer.C24_white_space"
   ],
   "note": "Words fully; operators except two dots, a shift at the very end, a zero second byte."
  },
  {
   "property": "C25",
   "status": "proved",
   "theorems": [
    "Ulam.Source.C25_position",
    "Ulam.Source.C25_after_load",
    "Ulam.Source.C25_after_unread"
   ],
   "note": "position after any legal schedule ending in a read; after a load; after a push-back; 16-bit line counter bound as hypothesis"
  },
  {
   "property": "C26",
   "status": "partial",
   "theorems": [
    "Ulam.Source.C26_spliced_partial",
    "Ulam.Source.C26_reload_loses"
   ],
   "note": "refinement to a single spliced byte list for all legal schedules; reloading a file still being read loses its rest (C26_reload_loses)"
  },
  {
   "property": "C27",
   "status": "partial",
   "theorems": [
    "Ulam.Control.C27_accepted",
    "Ulam.Control.C27_generated_code",
    "Ulam.Control.C27_gotos_have_labels",
    "Ulam.Control.C27_labels_used_partial",
    "Ulam.Control.C27_unused_loop_label"
   ],
   "note": "Acceptance, targets and uniqueness of labels proved for all programs; 'label iff used' holds for which labels (and loops without assertions), refuted for loops by C27_unused_loop_label: the parser's assert counts a use."
  },
  {
   "property": "C28",
   "status": "partial",
   "theorems": [
    "Ulam.Parser.C28_grammar_partial",
    "Ulam.Parser.C28_roundtrip_partial",
    "Ulam.Parser.C28_print_injective",
    "Ulam.Parser.C28_fewest_parentheses",
    "Ulam.Parser.C28_is_amp",
    "Ulam.Parser.C28_number_postfix"
   ],
   "note": "The documented expression grammar as a relation, the printer, and the parser's mutual functions (with fuel for the recursion; the answer is the same for every large enough amount). Round trip proved for all expressions without 'is T' directly before '&', where it is false (C28_is_amp). Left out: constants of types (T.sizeof), local, as, member selection by type."
  },
  {
   "property": "C29",
   "status": "proved",
   "theorems": [
    "Ulam.Token.C29_decode_spelling",
    "Ulam.Token.C29_reversible",
    "Ulam.Token.C29_injective",
    "Ulam.Token.C29_needs_two_digits"
   ],
   "note": "All tokens of Token.inc; ASCII spellings in general."
  },
  {
   "property": "C30",
   "status": "proved",
   "theorems": [
    "Ulam.Keys.C30_irreflexive",
    "Ulam.Keys.C30_lexicographic",
    "Ulam.Keys.C30_transitive",
    "Ulam.Keys.C30_total",
    "Ulam.Keys.C30_table"
   ],
   "note": "Order, equality and the std::map behaviour that follows."
  },
  {
   "property": "C31",
   "status": "partial",
   "theorems": [
    "Ulam.TypeTable.C31_basic_numbers",
    "Ulam.TypeTable.C31_numbers_have_types",
    "Ulam.TypeTable.C31_request_answers",
    "Ulam.TypeTable.C31_same_number_partial",
    "Ulam.TypeTable.C31_different_numbers",
    "Ulam.TypeTable.C31_number_keeps_meaning",
    "Ulam.TypeTable.C31_sizes_settled",
    "Ulam.TypeTable.C31_token_request",
    "Ulam.TypeTable.C31_limit",
    "Ulam.TypeTable.C31_instance_number_fails",
    "Ulam.TypeTable.C31_same_number_fails"
   ],
   "note": "All writers of the four type tables are modelled; class symbol tables are arguments. Proved for every history: lookups never fail, a request answers the least number that stands for the type, different types get different numbers, and a number keeps its meaning unless an operation names it. The claim that asking twice gives the same number fails when a lower number of unknown size comes to stand for the same type (witness), and for signatures that carry a class instance number (all cases)."
  },
  {
   "property": "C32",
   "status": "proved",
   "theorems": [
    "Ulam.CallStack.C32_store_load",
    "Ulam.CallStack.C32_frames_isolated",
    "Ulam.CallStack.C32_return_restores",
    "Ulam.CallStack.C32_return_succeeds"
   ],
   "note": "slot stores and loads, isolation of lower frames and exact restoration on return, for all disciplined operation sequences; packed parts of a slot (assignUlamValue) are outside"
  },
  {
   "property": "C33",
   "status": "partial",
   "theorems": [
    "Ulam.Packed.C33_items_independent_partial",
    "Ulam.Packed.C33_window_packed",
    "Ulam.Packed.C33_stack_clobbered",
    "Ulam.Packed.C33_stack_clobbered_witness"
   ],
   "note": "holds for arrays of at most 64 bits and for members in the event window; item stores into a 65-71 bit array variable on a stack replace the whole array (C33_stack_clobbered)"
  },
  {
   "property": "C34",
   "status": "partial",
   "theorems": [
    "Ulam.Window.C34_index_round_trip",
    "Ulam.Window.C34_coord_round_trip",
    "Ulam.Window.C34_sites",
    "Ulam.Window.C34_store_load",
    "Ulam.Window.C34_valid_partial",
    "Ulam.Window.C34_corner_valid",
    "Ulam.Window.C34_corner_absent",
    "Ulam.Window.C34_site_order"
   ],
   "note": "index/coordinate round trip, 41 sites, independent storage proved; the validity test accepts 20 coordinates outside the window (C34_corner_valid)"
  },
  {
   "property": "C35",
   "status": "proved",
   "theorems": [
    "Ulam.ElemType.C35_types_unique",
    "Ulam.ElemType.C35_all_used",
    "Ulam.ElemType.C35_sequence_fixed",
    "Ulam.Registry.C35_class_types"
   ],
   "note": "Generator and getElementType at class level; the retry loop has fuel 2^32, one turn for each counter value. After all 65534 types the next request never returns."
  },
  {
   "property": "C36",
   "status": "proved",
   "theorems": [
    "Ulam.Util.C36_reversible",
    "Ulam.Util.C36_printable",
    "Ulam.Util.C36_fields_distinct"
   ],
   "note": "Bytes, C locale isgraph."
  },
  {
   "property": "C37",
   "status": "proved",
   "theorems": [
    "Ulam.Registry.C37_numbers_unique",
    "Ulam.Registry.C37_numbers_bounded",
    "Ulam.Registry.C37_second_refused",
    "Ulam.Registry.C37_numbers_stable",
    "Ulam.Registry.C37_number_given"
   ],
   "note": "Registration through getRegistryNumber, locals blocks and their temporary classes; hypothesis: no locals block has UrSelf's type. assignRegistryNumber itself does not check uniqueness; uniqueness comes from the registry."
  },
  {
   "property": "C38",
   "status": "proved",
   "theorems": [
    "Ulam.CallStack.C38_and",
    "Ulam.CallStack.C38_or",
    "Ulam.CallStack.C38_nested",
    "Ulam.CallStack.C38_generated"
   ],
   "note": "evaluator on its real stack and generated code; values are abstract, _Bool32ToCbool is a parameter"
  },
  {
   "property": "C39",
   "status": "proved",
   "theorems": [
    "Ulam.Control.C39_first_match",
    "Ulam.Control.C39_otherwise_last"
   ],
   "note": "Case values without side effects; conditions with 'as' not modelled."
  },
  {
   "property": "C40",
   "status": "partial",
   "theorems": [
    "Ulam.UMod.C40_trichotomy",
    "Ulam.UMod.C40_other_comparisons",
    "Ulam.UMod.C40_antisymmetric_partial",
    "Ulam.UMod.C40_antisymmetric_without_dead_band",
    "Ulam.UMod.C40_dead_band_fails",
    "Ulam.UMod.C40_isComparable_fails",
    "Ulam.UMod.C40_increment_decrement_partial",
    "Ulam.UMod.C40_largest_value_fails",
    "Ulam.UMod.C40_neighbours",
    "Ulam.UMod.C40_not_rotation_invariant"
   ],
   "note": "UMod.ulam. Proved: trichotomy, antisymmetry without dead band and outside it, increment/decrement inverse on the values reached by counting. Negations proved: in the dead band each value is greater than the other; isComparable is always true; the largest value (the modulus is maxof, not maxof+1) is not restored; the order is not rotation invariant at half the range."
  },
  {
   "property": "C41",
   "status": "proved",
   "theorems": [
    "Ulam.ByteStream.C41_queue",
    "Ulam.ByteStream.C41_first_in_first_out",
    "Ulam.ByteStream.C41_refused_without_effect"
   ],
   "note": "ByteStreamArray.ulam; all calls, all histories."
  },
  {
   "property": "C42",
   "status": "proved",
   "theorems": [
    "Ulam.ByteStream.C42_print_unsigned",
    "Ulam.ByteStream.C42_print_int",
    "Ulam.ByteStream.C42_read_back",
    "Ulam.ByteStream.C42_other_bases",
    "Ulam.ByteStream.C42_print_to_array"
   ],
   "note": "ByteStream.ulam print functions over any writer; base 36 is refused; number 0 is printed in any base."
  },
  {
   "property": "C43",
   "status": "proved",
   "theorems": [
    "Ulam.Chance.C43_categorize",
    "Ulam.Chance.C43_categorize_answer",
    "Ulam.Chance.C43_allocate",
    "Ulam.Chance.C43_hit",
    "Ulam.Chance.C43_full_counter_fails",
    "Ulam.Chance.C43_scan",
    "Ulam.Chance.C43_count"
   ],
   "note": "WindowServices.hit/scan, WindowScanner.categorize and SelectorServices.count over Rand, programs that draw uniform independent numbers (assumed of the native Random.create). Exact laws, weights within the counters (255, 2^32-1, 65535); fails beyond: full 8-bit counter."
  },
  {
   "property": "C44",
   "status": "partial",
   "theorems": [
    "Ulam.Chance.C44_max_partial",
    "Ulam.Chance.C44_smaller_later_fails",
    "Ulam.Chance.C44_stale_maximum_fails"
   ],
   "note": "Partial: holds when the weights of the scan are nondecreasing and no earlier scan of the category saw a greater one; otherwise false (categorize adds weight instead of w; initScan keeps old maxima), proved as _fails."
  },
  {
   "property": "C45",
   "status": "partial",
   "theorems": [
    "Ulam.Chance.C45_minimize_partial",
    "Ulam.Chance.C45_maximize_partial",
    "Ulam.Chance.C45_value",
    "Ulam.Chance.C45_large_key_fails",
    "Ulam.Chance.C45_nothing_selected",
    "Ulam.Chance.C45_fair_ties_fails"
   ],
   "note": "Partial: keys must fit Int(16) (clamped otherwise, _fails). The value is right for all keys. Ties are not broken fairly as documented (_fails)."
  },
  {
   "property": "C46",
   "status": "proved",
   "theorems": [
    "Ulam.Chance.C46_between_in_range",
    "Ulam.Chance.C46_between_uniform",
    "Ulam.Chance.C46_wide_range_fails"
   ],
   "note": "In range for all Int pairs; uniform if fewer than 2^31 values; upper values never answered otherwise (_fails)."
  },
  {
   "property": "C47",
   "status": "partial",
   "theorems": [
    "Ulam.Stdlib.C47_between",
    "Ulam.Stdlib.C47_between_monotone",
    "Ulam.Stdlib.C47_modify",
    "Ulam.Stdlib.C47_dimmer",
    "Ulam.Stdlib.C47_dimmer_ends_black",
    "Ulam.Stdlib.C47_brighter_partial",
    "Ulam.Stdlib.C47_brighter_ends_white",
    "Ulam.Stdlib.C47_brighter_black_fails",
    "Ulam.Stdlib.C47_brighter_blue_fails",
    "Ulam.Stdlib.C47_color"
   ],
   "note": "brighter(black) has alpha 0 (fails); all other claims for all colors and percentages"
  },
  {
   "property": "C48",
   "status": "partial",
   "theorems": [
    "Ulam.Stdlib.C48_restore_partial",
    "Ulam.Stdlib.C48_other_symmetry",
    "Ulam.Stdlib.C48_symmetry_fails"
   ],
   "note": "same symmetry needed at save and restore; otherwise atoms go by site number (C48_symmetry_fails)"
  },
  {
   "property": "C49",
   "status": "partial",
   "theorems": [
    "Ulam.Fold.C49_exact_partial",
    "Ulam.Fold.C49_accepted",
    "Ulam.Fold.C49_zero_divisor",
    "Ulam.Fold.C49_rejects_part",
    "Ulam.Fold.C49_unsigned_difference_fails",
    "Ulam.Fold.C49_negative_remainder_fails",
    "Ulam.Fold.C49_capped_remainder_fails"
   ],
   "note": "Literals, unary minus and the five arithmetic operators. C49_exact_partial/C49_accepted: when no size is capped the folded value is exact, except (both proved to be real exceptions) unsigned differences below zero, which fold to 0, and negative quotients or remainders directly under a minus sign, division or remainder: -(-7 % 2) folds to -7, because the quotient node is narrowed but the wider type is reported to its parent. C49_zero_divisor: rejected always. Named constants, casts, Unary, Bits not modelled; CastOps.h assumed to saturate."
  },
  {
   "property": "C50",
   "status": "partial",
   "theorems": [
    "Ulam.Strings.C50_shown_text_partial",
    "Ulam.Strings.C50_quote_not_escaped",
    "Ulam.Strings.C50_octal_merges"
   ],
   "note": "Holds unless the string contains a double quote or a short octal escape before an octal digit (failures proved)."
  },
  {
   "property": "C51",
   "status": "proved",
   "theorems": [
    "Ulam.Util.C51_class_name",
    "Ulam.Util.C51_repeated_suffix_refused"
   ],
   "note": "Also shows that a repeated suffix is refused."
  },
  {
   "property": "C52",
   "status": "proved",
   "theorems": [
    "Ulam.Util.C52_hexU64_injective",
    "Ulam.Util.C52_hexU64_value"
   ],
   "note": "MFM's bit helpers assumed to take the high and low words."
  },
  {
   "property": "C53",
   "status": "partial",
   "theorems": [
    "Ulam.Control.C53_evaluator_agrees_partial",
    "Ulam.Control.C53_continue_skips_step",
    "Ulam.Control.C53_break_runs_on"
   ],
   "note": "Refuted in general by C53_continue_skips_step and C53_break_runs_on; proved for all programs without the two patterns."
  },
  {
   "property": "C54",
   "status": "proved",
   "theorems": [
    "Ulam.CallStack.C54_stack_restored"
   ],
   "note": "scalar (one slot) nodes: leaf, unary, binary, logical, ?:"
  },
  {
   "property": "C55",
   "status": "partial",
   "theorems": [
    "Ulam.CallStack.C55_same_value_partial",
    "Ulam.CallStack.C55_operand_order"
   ],
   "note": "agreement for operands without effects; C55_operand_order shows the generated code runs the right operand of a binary operator first while the evaluator runs the left one first"
  },
  {
   "property": "C56",
   "status": "partial",
   "theorems": [
    "Ulam.Packed.C56_read_range",
    "Ulam.Packed.C56_store_range_partial",
    "Ulam.Packed.C56_store_beyond",
    "Ulam.Packed.C56_store_wraps",
    "Ulam.Packed.C56_read_negative"
   ],
   "note": "reads are refused beyond the end; negative reads, stores beyond the end of a member array and subscripts that wrap the u8 position are accepted (witnesses)"
  },
  {
   "property": "C57",
   "status": "partial",
   "theorems": [
    "Ulam.Packed.C57_copy_partial",
    "Ulam.Packed.C57_copy_packed_partial",
    "Ulam.Packed.C57_wide_items",
    "Ulam.Packed.C57_quark_array"
   ],
   "note": "proved for primitive arrays up to 64 bits and for 65-71 bit arrays with items up to 32 bits; arrays of quarks and wide items fail (witnesses)"
  },
  {
   "property": "C58",
   "status": "proved",
   "theorems": [
    "Ulam.Parser.C58_stops",
    "Ulam.Parser.C58_stops_inside"
   ],
   "note": "All token lists; the recursion's termination is part of the claim."
  },
  {
   "property": "C59",
   "status": "proved",
   "theorems": [
    "Ulam.ByteStream.C59_copy_string",
    "Ulam.ByteStream.C59_full_writer_fails"
   ],
   "note": "copying from a string stream; a full writer loses the bytes and they are still counted."
  },
  {
   "property": "C60",
   "status": "proved",
   "theorems": [
    "Ulam.Chance.C60_odds",
    "Ulam.Chance.C60_odds_int"
   ],
   "note": "Over Rand with uniform independent draws."
  },
  {
   "property": "C61",
   "status": "proved",
   "theorems": [
    "Ulam.Chance.C61_mean_calls",
    "Ulam.Chance.C61_alarm_stays",
    "Ulam.Chance.C61_wide_level_fails",
    "Ulam.Chance.C61_overflow_fails"
   ],
   "note": "Mean by a potential function with geometric error bound. Fails if the level does not fit the counter or k<<time overflows (_fails)."
  },
  {
   "property": "C62",
   "status": "partial",
   "theorems": [
    "Ulam.Stdlib.C62_manhattan_exact",
    "Ulam.Stdlib.C62_manhattan_metric",
    "Ulam.Stdlib.C62_far_fails",
    "Ulam.Stdlib.C62_arithmetic",
    "Ulam.Stdlib.C62_boxes",
    "Ulam.Stdlib.C62_squared_length_partial",
    "Ulam.Stdlib.C62_squared_length_fails",
    "Ulam.Stdlib.C62_squared_distance",
    "Ulam.Stdlib.C62_directions",
    "Ulam.Stdlib.C62_take",
    "Ulam.Stdlib.C62_area"
   ],
   "note": "squared length of (-32768,-32768) clamps; Manhattan distance clamps for differences above 32767"
  },
  {
   "property": "C63",
   "status": "partial",
   "theorems": [
    "Ulam.Stdlib.C63_colony_size_partial",
    "Ulam.Stdlib.C63_dup_answer",
    "Ulam.Stdlib.C63_documented_size_fails"
   ],
   "note": "size is 2^(2^width-1), not the documented 2^(2^(width-1))"
  },
  {
   "property": "C64",
   "status": "proved",
   "theorems": [
    "Ulam.Default.C64_default",
    "Ulam.Default.C64_exists",
    "Ulam.Default.C64_contains_itself"
   ],
   "note": "C64_default places the wanted bits of own and inherited members (positions by the compiler's query, C15), C64_exists and C64_contains_itself are existence and the error for recursive containment. Unions are outside."
  },
  {
   "property": "C65",
   "status": "proved",
   "theorems": [
    "Ulam.Default.C65_list",
    "Ulam.Default.C65_accepted",
    "Ulam.Default.C65_refused",
    "Ulam.Default.C65_array",
    "Ulam.Default.C65_class_array"
   ],
   "note": "C65_list for nested lists, C65_accepted/C65_refused for names given once or twice, C65_array and C65_class_array for array lists. Items that are atoms from constants are treated as given bits."
  },
  {
   "property": "C66",
   "status": "partial",
   "theorems": [
    "Ulam.Scope.C66_passes_partial",
    "Ulam.Scope.C66_lexical_partial",
    "Ulam.Scope.C66_duplicate",
    "Ulam.Scope.C66_call_argument_fails",
    "Ulam.Scope.C66_constant_fails",
    "Ulam.Scope.C66_nesting_fails"
   ],
   "note": "Proved for functions without a variable used in a call inside its own initial value and without a constant that shares its name with a variable, up to blocks nested 46 deep (and without the depth limit for an unlimited number of passes). The three conditions are needed: C66_call_argument_fails, C66_constant_fails (a legal function is rejected), C66_nesting_fails (51 nested blocks use up the 101 passes). Types are not modelled: a pass waits for names only."
  },
  {
   "property": "C67",
   "status": "partial",
   "theorems": [
    "Ulam.Cast.C67_evaluated_partial",
    "Ulam.Cast.C67_generated_partial",
    "Ulam.Cast.C67_same_bits_partial",
    "Ulam.Cast.C67_implicit_preserves",
    "Ulam.Cast.C67_redundant_fails",
    "Ulam.Cast.C67_string_to_bits_fails",
    "Ulam.Cast.C67_string_to_bool_fails",
    "Ulam.Cast.C67_bits_to_string_fails"
   ],
   "note": "partial: casts of a Bool or Unary to its own type change bits in the evaluator only; String to Bits, String to Bool over 32 bits and Bits over 32 bits to String are accepted but not evaluable (negations proved). Library conversion functions are a hypothesis, met by a reference library."
  },
  {
   "property": "C68",
   "status": "partial",
   "theorems": [
    "Ulam.Oper.C68_numeric",
    "Ulam.Oper.C68_bits",
    "Ulam.Oper.C68_kept_partial",
    "Ulam.Oper.C68_unary_bits_fails"
   ],
   "note": "Missing: Unary constants as Bits with fewer bits (C68_unary_bits_fails: measured by number, not by bits). Library functions are a hypothesis (Faithful), met by refLib."
  },
  {
   "property": "C69",
   "status": "partial",
   "theorems": [
    "Ulam.Oper.C69_compare",
    "Ulam.Oper.C69_bitwise",
    "Ulam.Oper.C69_logical_partial",
    "Ulam.Oper.C69_mixed_sign",
    "Ulam.Oper.C69_ternary_partial",
    "Ulam.Oper.C69_ternary_unary_fails",
    "Ulam.Oper.C69_ternary_bool_fails",
    "Ulam.Oper.C69_wide_logical_fails"
   ],
   "note": "Logical operators in the evaluator only to 32 bits (C69_wide_logical_fails). Conditional expression: accepted ones are right; Unary and Bool branches of different sizes are refused or fail an assertion (_fails theorems). Operands are scalar primitives; library functions are a hypothesis (Faithful), met by refLib."
  },
  {
   "property": "C70",
   "status": "partial",
   "theorems": [
    "Ulam.Order.C70_generated",
    "Ulam.Order.C70_agree_partial",
    "Ulam.Order.C70_short",
    "Ulam.Order.C70_operator_fails",
    "Ulam.Order.C70_assign_fails",
    "Ulam.Order.C70_arguments_fails",
    "Ulam.Order.C70_extra_fails",
    "Ulam.Order.C70_false_fails"
   ],
   "note": "Agreement proved for expressions whose operands do not interfere; interfering operands, effects in extra arguments and wide false Bools left of && differ (_fails theorems). Functions take values; class members, method objects and reference parameters are not modelled."
  },
  {
   "property": "C71",
   "status": "partial",
   "theorems": [
    "Ulam.Subscript.C71_index_types",
    "Ulam.Subscript.C71_generated_partial",
    "Ulam.Subscript.C71_negative_fails",
    "Ulam.Subscript.C71_constant_partial",
    "Ulam.Subscript.C71_constant_fails",
    "Ulam.Subscript.C71_agree_partial",
    "Ulam.Subscript.C71_long_fails",
    "Ulam.Subscript.C71_long_store_fails",
    "Ulam.Subscript.C71_string_partial",
    "Ulam.Subscript.C71_string_negative_fails",
    "Ulam.Subscript.C71_string_long_fails"
   ],
   "note": "Non-negative indices up to 32 bits are right on both sides; negative, 64-bit and out-of-range constant indices are not (_fails theorems). Arrays up to 71 bits; custom and multi-dimensional arrays are not modelled; library conversions are a hypothesis met by refLib."
  },
  {
   "property": "C72",
   "status": "partial",
   "theorems": [
    "Ulam.Arith.C72_meaning",
    "Ulam.Arith.C72_zero",
    "Ulam.Arith.C72_exact_partial",
    "Ulam.Arith.C72_quotient_partial",
    "Ulam.Arith.C72_remainder_partial",
    "Ulam.Arith.C72_accepted",
    "Ulam.Arith.C72_quotient_fails",
    "Ulam.Arith.C72_remainder_fails",
    "Ulam.Arith.C72_division_within"
   ],
   "note": "the exact result or the nearest number proved for all pairs; exactness below the word (negative unsigned differences excepted) and for quotients and remainders, except Unsigned(32) with a wider Int, where it fails (C72_quotient_fails, C72_remainder_fails), and the most negative number / -1"
  },
  {
   "property": "C73",
   "status": "partial",
   "theorems": [
    "Ulam.Arith.C73_shift_partial",
    "Ulam.Arith.C73_left_exact_partial",
    "Ulam.Arith.C73_narrow_fails",
    "Ulam.Arith.C73_size_fails"
   ],
   "note": "distances that do not fit in the result's number of bits excepted (the evaluator cuts them: C73_narrow_fails); left shifts by 31-bit or (wide left operand) 32-bit distances have no size (C73_size_fails)"
  },
  {
   "property": "C74",
   "status": "partial",
   "theorems": [
    "Ulam.Arith.C74_minus",
    "Ulam.Arith.C74_minus_accepted",
    "Ulam.Arith.C74_bang",
    "Ulam.Arith.C74_twiddle",
    "Ulam.Arith.C74_plus",
    "Ulam.Arith.C74_assign",
    "Ulam.Arith.C74_assign_accepted",
    "Ulam.Arith.C74_assign_bitwise_partial",
    "Ulam.Arith.C74_assign_shift_partial",
    "Ulam.Arith.C74_assign_shift_fails",
    "Ulam.Arith.C74_step_accepted",
    "Ulam.Arith.C74_step",
    "Ulam.Arith.C74_assign_zero_fails"
   ],
   "note": "bitwise assignment of a wider Unary constant excepted as in C68; shift assignments by distances that do not fit the left operand's size fail in the evaluator (C74_assign_shift_fails); /= and %= by zero unguarded in the evaluator (C74_assign_zero_fails)"
  },
  {
   "property": "C75",
   "status": "partial",
   "theorems": [
    "Ulam.Proxy.C75_max",
    "Ulam.Proxy.C75_min",
    "Ulam.Proxy.C75_bool",
    "Ulam.Proxy.C75_refused_partial",
    "Ulam.Proxy.C75_string_fails",
    "Ulam.Proxy.C75_classid",
    "Ulam.Proxy.C75_classidof"
   ],
   "note": "String, which is let through and has no limits, is the exception (C75_string_fails)"
  },
  {
   "property": "C76",
   "status": "partial",
   "theorems": [
    "Ulam.Proxy.C76_sizeof_partial",
    "Ulam.Proxy.C76_lengthof",
    "Ulam.Proxy.C76_lengthof_scalar",
    "Ulam.Proxy.C76_lengthof_string",
    "Ulam.Proxy.C76_sizeof_fails"
   ],
   "note": "sizeof for totals below 2^31 bits; larger declared arrays fail (C76_sizeof_fails)"
  },
  {
   "property": "C77",
   "status": "partial",
   "theorems": [
    "Ulam.Proxy.C77_bits_partial",
    "Ulam.Proxy.C77_items_partial",
    "Ulam.Proxy.C77_total_fails",
    "Ulam.Proxy.C77_wide_fails",
    "Ulam.Proxy.C77_unknown_fails"
   ],
   "note": "size expressions up to 32 bits and totals below 2^32 bits; the others fail (C77_wide_fails, C77_total_fails, C77_unknown_fails)"
  },
  {
   "property": "C78",
   "status": "proved",
   "theorems": [
    "Ulam.Related.C78_position",
    "Ulam.Related.C78_is",
    "Ulam.Related.C78_direct",
    "Ulam.Related.C78_ordered"
   ],
   "note": "Generated functions as lookups in the written table; places from C15."
  },
  {
   "property": "C79",
   "status": "partial",
   "theorems": [
    "Ulam.Related.C79_is",
    "Ulam.Related.C79_as_partial",
    "Ulam.Related.C79_as_sound",
    "Ulam.Related.C79_transient_fails",
    "Ulam.Related.C79_generated",
    "Ulam.Related.C79_refused"
   ],
   "note": "Evaluator and generated code; as to a transient is wrong in the evaluator (C79_transient_fails)."
  },
  {
   "property": "C80",
   "status": "partial",
   "theorems": [
    "Ulam.Related.C80_cast",
    "Ulam.Related.C80_self",
    "Ulam.Related.C80_select",
    "Ulam.Related.C80_super_place",
    "Ulam.Related.C80_super_partial",
    "Ulam.Related.C80_cast_atom",
    "Ulam.Related.C80_as_partial",
    "Ulam.Related.C80_as_element_fails",
    "Ulam.Related.C80_as_atom_partial",
    "Ulam.Related.C80_as_atom_fails",
    "Ulam.Related.C80_member_partial",
    "Ulam.Related.C80_member_fails",
    "Ulam.Related.C80_super_fails"
   ],
   "note": "Each operation of the evaluator that moves a pointer; four operations misplace it in stated cases (_fails theorems)."
  },
  {
   "property": "C81",
   "status": "partial",
   "theorems": [
    "Ulam.Driver.C81_clean",
    "Ulam.Driver.C81_stages",
    "Ulam.Driver.C81_status",
    "Ulam.Driver.C81_exit_partial",
    "Ulam.Driver.C81_exit_fails"
   ],
   "note": "the exit status loses multiples of 256 (C81_exit_fails); stages are arbitrary lists of messages and answers"
  },
  {
   "property": "C82",
   "status": "proved",
   "theorems": [
    "Ulam.Driver.C82_shown_once",
    "Ulam.Driver.C82_count"
   ],
   "note": ""
  },
  {
   "property": "C83",
   "status": "partial",
   "theorems": [
    "Ulam.Driver.C83_closed",
    "Ulam.Driver.C83_once",
    "Ulam.Driver.C83_ends",
    "Ulam.Driver.C83_asked_partial",
    "Ulam.Driver.C83_asked_fails",
    "Ulam.Driver.C83_named",
    "Ulam.Driver.C83_named_class"
   ],
   "note": "files asked for that are also loaded by another file are not checked (C83_asked_fails); the file system is fixed during a compilation"
  },
  {
   "property": "C84",
   "status": "partial",
   "theorems": [
    "Ulam.Sizing.C84_ends",
    "Ulam.Sizing.C84_sum_partial",
    "Ulam.Sizing.C84_answer",
    "Ulam.Sizing.C84_all_partial",
    "Ulam.Sizing.C84_order",
    "Ulam.Sizing.C84_wrap_fails",
    "Ulam.Sizing.C84_early_fails",
    "Ulam.Sizing.C84_union_fails"
   ],
   "note": "Full for programs whose sizes do not wrap in 32 bits, whose arrays get length and item size together, and (for progress) whose unions have no base class as a member; each exclusion has a counterexample (C84_wrap_fails, C84_early_fails, C84_union_fails)."
  },
  {
   "property": "C85",
   "status": "proved",
   "theorems": [
    "Ulam.Sizing.C85_never_sized",
    "Ulam.Sizing.C85_reported",
    "Ulam.Sizing.C85_array_fails"
   ],
   "note": "Reported for scalar containment; C85_array_fails shows that an array of itself is never reported by the sizing."
  },
  {
   "property": "C86",
   "status": "partial",
   "theorems": [
    "Ulam.Dispatch.C86_by_reference",
    "Ulam.Dispatch.C86_class_partial",
    "Ulam.Dispatch.C86_runs_partial",
    "Ulam.Dispatch.C86_returned_fails",
    "Ulam.Dispatch.C86_capture_fails",
    "Ulam.Dispatch.C86_parameter_fails",
    "Ulam.Dispatch.C86_as_fails"
   ],
   "note": "Proved for left sides in which what the variable's name finds in scope does no harm, no reference returned by a function called on a plain variable, and functions that begin in one class (C16); the other cases fail in the evaluator, see the _fails theorems. What UlamRef does at run time is assumed."
  },
  {
   "property": "C87",
   "status": "partial",
   "theorems": [
    "Ulam.Constness.C87_kept_partial",
    "Ulam.Constness.C87_returned_partial",
    "Ulam.Constness.C87_refused",
    "Ulam.Constness.C87_allowed",
    "Ulam.Constness.C87_ternary_fails",
    "Ulam.Constness.C87_cast_fails",
    "Ulam.Constness.C87_storageof_fails",
    "Ulam.Constness.C87_return_fails",
    "Ulam.Constness.C87_as_fails",
    "Ulam.Constness.C87_cast_refused"
   ],
   "note": "Proved for programs whose choices, reference casts, storageof/atomof, returned references and as-conditionals are not about constants; each of the five is shown to let an accepted program change a constant (_fails)."
  },
  {
   "property": "C88",
   "status": "partial",
   "theorems": [
    "Ulam.Frame.C88_apart_partial",
    "Ulam.Frame.C88_inside_partial",
    "Ulam.Frame.C88_bound",
    "Ulam.Frame.C88_doubles",
    "Ulam.Frame.C88_choices_fail"
   ],
   "note": "partial: for functions whose depth fits its type (bound proved); each choice doubles the depth, and from 31 on variables share slots (C88_choices_fail)"
  },
  {
   "property": "C89",
   "status": "proved",
   "theorems": [
    "Ulam.Frame.C89_parameter",
    "Ulam.Frame.C89_self",
    "Ulam.Frame.C89_returned",
    "Ulam.Frame.C89_restored"
   ],
   "note": ""
  },
  {
   "property": "C90",
   "status": "partial",
   "theorems": [
    "Ulam.Frame.C90_bound_partial",
    "Ulam.Frame.C90_recursion_fails"
   ],
   "note": "partial: for programs without recursion; with recursion a local reference stands for what the last call bound (C90_recursion_fails)"
  },
  {
   "property": "C91",
   "status": "partial",
   "theorems": [
    "Ulam.Consts.C91_values",
    "Ulam.Consts.C91_order",
    "Ulam.Consts.C91_circular",
    "Ulam.Consts.C91_any_order_partial",
    "Ulam.Consts.C91_forward",
    "Ulam.Consts.C91_limit_fails",
    "Ulam.Consts.C91_filescope_fails",
    "Ulam.Consts.C91_unknown"
   ],
   "note": "values, order independence and refusal of circles in classes proved without restriction; acceptance proved for any order up to the round limit and for definition-before-use of any length; the limit (chains over 101) and circular file-scope constants (accepted without a value) are proved counterexamples"
  },
  {
   "property": "C92",
   "status": "partial",
   "theorems": [
    "Ulam.Templ.C92_parameters",
    "Ulam.Templ.C92_parameters_accepted",
    "Ulam.Templ.C92_parameter_commas_fails",
    "Ulam.Templ.C92_after",
    "Ulam.Templ.C92_before",
    "Ulam.Templ.C92_order",
    "Ulam.Templ.C92_text_partial",
    "Ulam.Templ.C92_commas_fails"
   ],
   "note": "commas: what is accepted beyond the written grammar is C92_commas_fails and C92_parameter_commas_fails"
  },
  {
   "property": "C93",
   "status": "partial",
   "theorems": [
    "Ulam.Merge.C93_same_class",
    "Ulam.Merge.C93_same_arguments_partial",
    "Ulam.Merge.C93_stable",
    "Ulam.Merge.C93_settled",
    "Ulam.Merge.C93_accepted_partial",
    "Ulam.Merge.C93_too_common_fails"
   ],
   "note": "texts of arguments injective as far as C04; acceptance only up to nine uses of an instance, C93_too_common_fails shows many close uses are refused"
  },
  {
   "property": "C94",
   "status": "partial",
   "theorems": [
    "Ulam.StmtParse.C94_terminates",
    "Ulam.StmtParse.C94_reads",
    "Ulam.StmtParse.C94_accepts_partial",
    "Ulam.StmtParse.C94_exactly",
    "Ulam.StmtParse.C94_unique",
    "Ulam.StmtParse.C94_nearest_else",
    "Ulam.StmtParse.C94_stray_as_fails",
    "Ulam.StmtParse.C94_meaning"
   ],
   "note": "partial: completeness for texts where as is used only as a condition; C94_stray_as_fails shows the refusal"
  },
  {
   "property": "C95",
   "status": "partial",
   "theorems": [
    "Ulam.Returns.C95_typed",
    "Ulam.Returns.C95_value",
    "Ulam.Returns.C95_returns_partial",
    "Ulam.Returns.C95_evaluator_partial",
    "Ulam.Returns.C95_falls_off",
    "Ulam.Returns.C95_falls_off_fails"
   ],
   "note": "partial: a value is given back for bodies whose form shows that they do not come to their end; C95_falls_off_fails shows that others are accepted too; the evaluator agrees under the conditions of C53"
  },
  {
   "property": "C96",
   "status": "partial",
   "theorems": [
    "Ulam.Member.C96_found",
    "Ulam.Member.C96_seen",
    "Ulam.Member.C96_own",
    "Ulam.Member.C96_unique",
    "Ulam.Member.C96_superclass_first",
    "Ulam.Member.C96_class_or_ancestor",
    "Ulam.Member.C96_functions",
    "Ulam.Member.C96_shadow_exact",
    "Ulam.Member.C96_unhidden_partial",
    "Ulam.Member.C96_hidden_fails",
    "Ulam.Member.C96_ambiguous_fails",
    "Ulam.Member.C96_file_last",
    "Ulam.Member.C96_constants_only"
   ],
   "note": "Fails for shared bases (a hidden declaration is found) and for a name two bases declare independently (taken silently): C96_hidden_fails, C96_ambiguous_fails. Everything else for all hierarchies."
  },
  {
   "property": "C97",
   "status": "partial",
   "theorems": [
    "Ulam.Preparse.C97_reads_partial",
    "Ulam.Preparse.C97_no_directive",
    "Ulam.Preparse.C97_unread",
    "Ulam.Preparse.C97_peek",
    "Ulam.Preparse.C97_missing_use",
    "Ulam.Preparse.C97_missing_load",
    "Ulam.Preparse.C97_bad_version_partial",
    "Ulam.Preparse.C97_no_name",
    "Ulam.Preparse.C97_comments_fails",
    "Ulam.Preparse.C97_version_fails",
    "Ulam.Preparse.C97_version_at_end_fails",
    "Ulam.Preparse.C97_names_fails",
    "Ulam.Preparse.C97_first_fails",
    "Ulam.Preparse.C97_no_semicolon",
    "Ulam.Preparse.C97_message"
   ],
   "note": "Partial: a comment directly after another (also across a directive) reaches the parser, versions are taken modulo 2^32, malformed names are run together, undefined behaviour for a text that ends in a version number: see the _fails theorems."
  },
  {
   "property": "C98",
   "status": "partial",
   "theorems": [
    "Ulam.RefRet.C98_local_refused",
    "Ulam.RefRet.C98_variable_refused",
    "Ulam.RefRet.C98_passed_through",
    "Ulam.RefRet.C98_value",
    "Ulam.RefRet.C98_accepted_partial",
    "Ulam.RefRet.C98_parameter_fails",
    "Ulam.RefRet.C98_parameter_passed_fails",
    "Ulam.RefRet.C98_self_and_sites",
    "Ulam.RefRet.C98_constant_refused"
   ],
   "note": "Locals are refused, the caller's slots are kept; a parameter passed by value gets out (C98_parameter_fails)."
  },
  {
   "property": "C99",
   "status": "partial",
   "theorems": [
    "Ulam.ClassCast.C99_implicit",
    "Ulam.ClassCast.C99_implicit_array",
    "Ulam.ClassCast.C99_array_forecast_fails",
    "Ulam.ClassCast.C99_explicit",
    "Ulam.ClassCast.C99_array_explicit_fails",
    "Ulam.ClassCast.C99_to_atom",
    "Ulam.ClassCast.C99_explicit_to_atom",
    "Ulam.ClassCast.C99_from_atom",
    "Ulam.ClassCast.C99_from_primitive",
    "Ulam.ClassCast.C99_constness",
    "Ulam.ClassCast.C99_constness_fails",
    "Ulam.ClassCast.C99_implicit_explicit",
    "Ulam.ClassCast.C99_order",
    "Ulam.ClassCast.C99_eval_partial",
    "Ulam.ClassCast.C99_eval_transient_fails",
    "Ulam.ClassCast.C99_eval_atom",
    "Ulam.ClassCast.C99_atom_round_trip",
    "Ulam.ClassCast.C99_from_reference",
    "Ulam.ClassCast.C99_downcast_value_fails",
    "Ulam.ClassCast.C99_kinds",
    "Ulam.ClassCast.C99_constant_operand"
   ],
   "note": "Acceptance characterised exactly; evaluation for sizes the evaluator holds; constness lost from Atom to an element (C99_constness_fails)."
  },
  {
   "property": "C100",
   "status": "proved",
   "theorems": [
    "Ulam.ClassIter.C100_iterates",
    "Ulam.ClassIter.C100_hasNext_idempotent",
    "Ulam.ClassIter.C100_next",
    "Ulam.ClassIter.C100_index",
    "Ulam.ClassIter.C100_copies_shared",
    "Ulam.ClassIter.C100_big_class_fails_loudly",
    "Ulam.ClassIter.C100_no_element",
    "Ulam.ClassIter.C100_unchanged_on_refusal_fails"
   ],
   "note": "For counts up to Int.maxof and shared classes that do not overlap in the target. The native functions answer anything."
  },
  {
   "property": "C101",
   "status": "partial",
   "theorems": [
    "Ulam.FuncTable.C101_parse_key",
    "Ulam.FuncTable.C101_parse_key_none",
    "Ulam.FuncTable.C101_overload",
    "Ulam.FuncTable.C101_accepted_iff",
    "Ulam.FuncTable.C101_no_duplicates_partial",
    "Ulam.FuncTable.C101_distinct_accepted",
    "Ulam.FuncTable.C101_returns_order",
    "Ulam.FuncTable.C101_no_duplicates_fails",
    "Ulam.FuncTable.C101_duplicate_order_fails",
    "Ulam.FuncTable.C101_empty_class_fails"
   ],
   "note": "Duplicates are found when none of the functions is virtual; with virtual functions, and in classes written with empty braces, the claim fails, proved with witnesses."
  },
  {
   "property": "C102",
   "status": "partial",
   "theorems": [
    "Ulam.CustomArray.C102_item_type",
    "Ulam.CustomArray.C102_custom_iff",
    "Ulam.CustomArray.C102_call_iff",
    "Ulam.CustomArray.C102_call_partial",
    "Ulam.CustomArray.C102_shared_base_fails",
    "Ulam.CustomArray.C102_check_iff",
    "Ulam.CustomArray.C102_check_silent_fails",
    "Ulam.CustomArray.C102_void_aborts_fails",
    "Ulam.CustomArray.C102_messages",
    "Ulam.CustomArray.C102_lengthof"
   ],
   "note": "The call is characterised for all trees; the claim by classes holds when no class is inherited twice and fails otherwise, proved with a witness. The reporting of bad return types fails."
  },
  {
   "property": "C103",
   "status": "partial",
   "theorems": [
    "Ulam.GenPos.C103_local_variable",
    "Ulam.GenPos.C103_self_read_partial",
    "Ulam.GenPos.C103_self_base_fails",
    "Ulam.GenPos.C103_reference_own",
    "Ulam.GenPos.C103_reference_one",
    "Ulam.GenPos.C103_reference_partial",
    "Ulam.GenPos.C103_reference_fails",
    "Ulam.GenPos.C103_reference_other_fails",
    "Ulam.GenPos.C103_super_partial",
    "Ulam.GenPos.C103_super_derived_fails",
    "Ulam.GenPos.C103_super_inherited_fails",
    "Ulam.GenPos.C103_call_partial",
    "Ulam.GenPos.C103_call_fails",
    "Ulam.GenPos.C103_layout"
   ],
   "note": "Local variables, own members of references, single members: full. Partial: chains after a base selected by name, inherited members of inherited members by reference, super in objects of derived classes or for members the superclass inherits, calls on members of inherited members; each with a theorem giving the wrong place computed."
  },
  {
   "property": "C104",
   "status": "partial",
   "theorems": [
    "Ulam.VtGen.C104_written",
    "Ulam.VtGen.C104_call_partial",
    "Ulam.VtGen.C104_start_fails",
    "Ulam.VtGen.C104_unrelated"
   ],
   "note": "Partial: tables of at most 65536 functions (the starts are 16 bit), and functions that begin in one class only (C16)."
  },
  {
   "property": "C105",
   "status": "proved",
   "theorems": [
    "Ulam.Storage.C105_valid_iff",
    "Ulam.Storage.C105_update_valid",
    "Ulam.Storage.C105_update_iff",
    "Ulam.Storage.C105_no_bits_fails",
    "Ulam.Storage.C105_usable_fails"
   ],
   "note": ""
  },
  {
   "property": "C106",
   "status": "proved",
   "theorems": [
    "Ulam.Storage.C106_latch",
    "Ulam.Storage.C106_more_flips_fails",
    "Ulam.Storage.C106_once"
   ],
   "note": ""
  },
  {
   "property": "C107",
   "status": "partial",
   "theorems": [
    "Ulam.Storage.C107_sqrt32",
    "Ulam.Storage.C107_angle_partial",
    "Ulam.Storage.C107_opposite_fails",
    "Ulam.Storage.C107_outside_fails",
    "Ulam.Storage.C107_symmetric",
    "Ulam.Storage.C107_clockwise"
   ],
   "note": "Partial: opposite sites off the axes get 179 instead of 180 (proved)."
  },
  {
   "property": "C108",
   "status": "proved",
   "theorems": [
    "Ulam.Inherit.C108_accepted",
    "Ulam.Inherit.C108_refused_reported",
    "Ulam.Inherit.C108_accepted_iff",
    "Ulam.Inherit.C108_rounds",
    "Ulam.Inherit.C108_ancestors",
    "Ulam.Inherit.C108_no_class"
   ],
   "note": ""
  },
  {
   "property": "C109",
   "status": "proved",
   "theorems": [
    "Ulam.Decl.C109_accepted",
    "Ulam.Decl.C109_size",
    "Ulam.Decl.C109_outcome",
    "Ulam.Decl.C109_ok",
    "Ulam.Decl.C109_kin_fails"
   ],
   "note": ""
  },
  {
   "property": "C110",
   "status": "proved",
   "theorems": [
    "Ulam.Decl.C110_accepted",
    "Ulam.Decl.C110_hazy_fails"
   ],
   "note": ""
  },
  {
   "property": "C111",
   "status": "partial",
   "theorems": [
    "Ulam.Decl.C111_list",
    "Ulam.Decl.C111_array",
    "Ulam.Decl.C111_errors",
    "Ulam.Decl.C111_order_fails",
    "Ulam.Decl.C111_const_partial",
    "Ulam.Decl.C111_const_fails",
    "Ulam.Decl.C111_uses"
   ],
   "note": "isAConstant of a list with items that are not known yet depends on the order (C111_const_fails), and an item not known yet hides one that is refused (C111_order_fails)."
  },
  {
   "property": "C112",
   "status": "partial",
   "theorems": [
    "Ulam.Overload.C112_notes",
    "Ulam.Overload.C112_asserts",
    "Ulam.Overload.C112_unrelated_partial",
    "Ulam.Overload.C112_one_class_partial",
    "Ulam.Overload.C112_fan_fails",
    "Ulam.Overload.C112_kinds_fails"
   ],
   "note": "The notes and the second and third assertion are proved in general. That the two counts agree fails (C112_fan_fails, C112_kinds_fails) and is proved where the declaring classes are unrelated with at most one applicable function each, and where only one class declares the function."
  },
  {
   "property": "C113",
   "status": "proved",
   "theorems": [
    "Ulam.Dm.C113_accepted",
    "Ulam.Dm.C113_outcome",
    "Ulam.Dm.C113_ok",
    "Ulam.Dm.C113_cast"
   ],
   "note": ""
  },
  {
   "property": "C114",
   "status": "partial",
   "theorems": [
    "Ulam.Dm.C114_kept_partial",
    "Ulam.Dm.C114_bool_partial",
    "Ulam.Dm.C114_bool_fails",
    "Ulam.Dm.C114_unary_partial",
    "Ulam.Dm.C114_unary_fails",
    "Ulam.Dm.C114_outcome",
    "Ulam.Dm.C114_unevaluable_fails",
    "Ulam.Dm.C114_big_fails"
   ],
   "note": "Proved for Int, Unsigned, Bits and String of any size; for Bool and Unary under hypotheses on the value, because the conversion is applied a second time to a value already in the member's format (C114_unary_fails, C114_bool_fails); values of more than 64 bits abort (C114_big_fails)."
  },
  {
   "property": "C115",
   "status": "proved",
   "theorems": [
    "Ulam.Dm.C115_sizes"
   ],
   "note": ""
  },
  {
   "property": "C116",
   "status": "proved",
   "theorems": [
    "Ulam.ValText.C116_prefix_free",
    "Ulam.ValText.C116_zero"
   ],
   "note": ""
  },
  {
   "property": "C117",
   "status": "proved",
   "theorems": [
    "Ulam.ValText.C117_value",
    "Ulam.ValText.C117_constant_array",
    "Ulam.ValText.C117_list"
   ],
   "note": ""
  },
  {
   "property": "C118",
   "status": "partial",
   "theorems": [
    "Ulam.ValText.C118_pretty",
    "Ulam.ValText.C118_printed_partial",
    "Ulam.ValText.C118_negative_fails",
    "Ulam.ValText.C118_upper_half_fails",
    "Ulam.ValText.C118_unary_fails"
   ],
   "note": "Proved in full for the text in names of instances (C118_pretty). For the printed tree under hypotheses on the value, as the code prints others differently (C118_negative_fails, C118_upper_half_fails, C118_unary_fails). String is not modelled here."
  },
  {
   "property": "C119",
   "status": "partial",
   "theorems": [
    "Ulam.Select.C119_restored",
    "Ulam.Select.C119_accepted",
    "Ulam.Select.C119_reported",
    "Ulam.Select.C119_modifiable_partial",
    "Ulam.Select.C119_hazy_fails",
    "Ulam.Select.C119_used_before"
   ],
   "note": "All of it but the clause on calls, which holds unless it is hazy whether the left side can be stored into (C119_hazy_fails)."
  },
  {
   "property": "C120",
   "status": "partial",
   "theorems": [
    "Ulam.Select.C120_position",
    "Ulam.Select.C120_value_partial",
    "Ulam.Select.C120_inherited_fails"
   ],
   "note": "Positions in full (C120_position). Values for members declared in the classes they are selected from or in a base at their beginning; for others the code gives other bits (C120_inherited_fails). Classes are taken to be packed."
  },
  {
   "property": "C121",
   "status": "partial",
   "theorems": [
    "Ulam.ConstRead.C121_whole",
    "Ulam.ConstRead.C121_read_partial",
    "Ulam.ConstRead.C121_item_partial",
    "Ulam.ConstRead.C121_array",
    "Ulam.ConstRead.C121_chain_fails"
   ],
   "note": "For the constant as a whole, items of constant arrays, and one selection of a member that is not inherited; for others the position read is given and is in general another (C121_chain_fails)."
  },
  {
   "property": "C122",
   "status": "partial",
   "theorems": [
    "Ulam.ConstRead.C122_name_partial",
    "Ulam.ConstRead.C122_hidden_fails",
    "Ulam.ConstRead.C122_abort"
   ],
   "note": "All but constants of the class compiled where a constant of the function has the same name (C122_hidden_fails)."
  },
  {
   "property": "C123",
   "status": "proved",
   "theorems": [
    "Ulam.BaseCopy.C123_read",
    "Ulam.BaseCopy.C123_only",
    "Ulam.BaseCopy.C123_upcast"
   ],
   "note": ""
  },
  {
   "property": "C124",
   "status": "partial",
   "theorems": [
    "Ulam.BaseCopy.C124_write_partial",
    "Ulam.BaseCopy.C124_roundtrip_partial",
    "Ulam.BaseCopy.C124_others_partial",
    "Ulam.BaseCopy.C124_transient_fails"
   ],
   "note": "All quarks, and transients of up to 32 or more than 64 bits or whose object is of the class itself (Kept). For transients of 33 to 64 bits in an object of a derived class the claim is false on a host with the low byte first: C124_transient_fails."
  },
  {
   "property": "C125",
   "status": "partial",
   "theorems": [
    "Ulam.Immed.C125_read_partial",
    "Ulam.Immed.C125_write_partial",
    "Ulam.Immed.C125_quark_fails"
   ],
   "note": "All types but quark arrays of 65 to 95 bits in all; for these the claim is false: C125_quark_fails."
  },
  {
   "property": "C126",
   "status": "proved",
   "theorems": [
    "Ulam.Immed.C126_read",
    "Ulam.Immed.C126_write",
    "Ulam.Immed.C126_join"
   ],
   "note": ""
  },
  {
   "property": "C127",
   "status": "proved",
   "theorems": [
    "Ulam.Immed.C127_string",
    "Ulam.Immed.C127_quark"
   ],
   "note": ""
  },
  {
   "property": "C128",
   "status": "partial",
   "theorems": [
    "Ulam.Immed.C128_copy",
    "Ulam.Immed.C128_ref_partial",
    "Ulam.Immed.C128_ref_fails",
    "Ulam.Immed.C128_fill_fails"
   ],
   "note": "Copy constructors in full (C128_copy). From a reference: scalars, and arrays of primitives and Strings of up to 64 bits; in all other cases the claim is false: C128_ref_fails, C128_fill_fails."
  },
  {
   "property": "C129",
   "status": "partial",
   "theorems": [
    "Ulam.AsRef.C129_ref",
    "Ulam.AsRef.C129_object_place",
    "Ulam.AsRef.C129_object_partial",
    "Ulam.AsRef.C129_same_fails",
    "Ulam.AsRef.C129_transient_fails",
    "Ulam.AsRef.C129_atom_place",
    "Ulam.AsRef.C129_atom_fails",
    "Ulam.AsRef.C129_member_fails",
    "Ulam.AsRef.C129_read"
   ],
   "note": "In full for self and references (C129_ref, C129_read). For variables: position and class always (C129_object_place), the rest but for the cases of C129_same_fails and C129_transient_fails. For atoms: position and class (C129_atom_place); C129_atom_fails says when the rest holds. Data members of a class: false, C129_member_fails."
  },
  {
   "property": "C130",
   "status": "proved",
   "theorems": [
    "Ulam.SelfCopy.C130_as_reference",
    "Ulam.SelfCopy.C130_write",
    "Ulam.SelfCopy.C130_roundtrip"
   ],
   "note": "An object with the members of an element class is taken to be of that class, since the compiler accepts no class derived from an element (NodeBlockClass.cpp:1114-1167)."
  },
  {
   "property": "C131",
   "status": "partial",
   "theorems": [
    "Ulam.SelfCopy.C131_self_partial",
    "Ulam.SelfCopy.C131_base_fails",
    "Ulam.SelfCopy.C131_assign_partial",
    "Ulam.SelfCopy.C131_assign_fails"
   ],
   "note": "Proved if the object is of the class itself, if no base has bits, and in as-conditions (C131_self_partial); false for all other classes of up to 64 bits, C131_base_fails. Classes of more than 64 bits seen as bases are modelled but nothing is claimed for them."
  },
  {
   "property": "C132",
   "status": "proved",
   "theorems": [
    "Ulam.ClassInfo.C132_info",
    "Ulam.ClassInfo.C132_partition"
   ],
   "note": ""
  },
  {
   "property": "C133",
   "status": "partial",
   "theorems": [
    "Ulam.EvalCopy.C133_cast",
    "Ulam.EvalCopy.C133_reference_partial",
    "Ulam.EvalCopy.C133_reference_fails",
    "Ulam.EvalCopy.C133_assign",
    "Ulam.EvalCopy.C133_roundtrip",
    "Ulam.EvalCopy.C133_compose"
   ],
   "note": "Casts of values, assignments, round trips and composition are proved in full; casts of references only for parts of up to 64 bits (C133_reference_partial), for others an assertion fails (C133_reference_fails)."
  },
  {
   "property": "C134",
   "status": "partial",
   "theorems": [
    "Ulam.VarInit.C134_place",
    "Ulam.VarInit.C134_default_partial",
    "Ulam.VarInit.C134_default_fails"
   ],
   "note": "False for arrays of quarks or transients of 65 to 71 bits altogether (C134_default_fails); proved for all other types."
  },
  {
   "property": "C135",
   "status": "partial",
   "theorems": [
    "Ulam.VarInit.C135_given_partial",
    "Ulam.VarInit.C135_primitives_fails",
    "Ulam.VarInit.C135_transient_fails",
    "Ulam.VarInit.C135_classes_fails",
    "Ulam.VarInit.C135_elements_fails"
   ],
   "note": "False for the types of the four _fails theorems; proved for all other types whose items have at most 64 bits and for single elements."
  },
  {
   "property": "C136",
   "status": "partial",
   "theorems": [
    "Ulam.ConstSlot.C136_primitives_partial",
    "Ulam.ConstSlot.C136_classes_partial",
    "Ulam.ConstSlot.C136_primitives_fails",
    "Ulam.ConstSlot.C136_classes_fails",
    "Ulam.ConstSlot.C136_default_fails"
   ],
   "note": "False for arrays of 65 to 71 bits and for empty lists for quarks of more than 32 bits (the _fails theorems); proved otherwise. Atoms, and arrays named after another constant array, are not modelled."
  },
  {
   "property": "C137",
   "status": "partial",
   "theorems": [
    "Ulam.RefInit.C137_whole",
    "Ulam.RefInit.C137_local_variable",
    "Ulam.RefInit.C137_primitive_partial",
    "Ulam.RefInit.C137_primitive_fails",
    "Ulam.RefInit.C137_class_partial",
    "Ulam.RefInit.C137_class_fails",
    "Ulam.RefInit.C137_base_fails",
    "Ulam.RefInit.C137_inner_base_fails"
   ],
   "note": "Proved for members of variables; from references for numbers whose first member is an own one or the only one, and for classes exactly when each later member is declared at position 0; failures proved for the others. Atoms, array items, super and elements inside transients are left out."
  },
  {
   "property": "C138",
   "status": "partial",
   "theorems": [
    "Ulam.CastPos.C138_variable",
    "Ulam.CastPos.C138_reference",
    "Ulam.CastPos.C138_member_of_variable_partial",
    "Ulam.CastPos.C138_member_of_reference_partial",
    "Ulam.CastPos.C138_inherited_fails",
    "Ulam.CastPos.C138_assertion_fails",
    "Ulam.CastPos.C138_same_fails"
   ],
   "note": "Members of members: proved where each later member is declared by the type of the one before; the code is wrong where it is inherited by it (C138_inherited_fails, C138_assertion_fails) and for a cast of a member to a reference to its own class (C138_same_fails)."
  },
  {
   "property": "C139",
   "status": "partial",
   "theorems": [
    "Ulam.InitParse.C139_reads_back",
    "Ulam.InitParse.C139_unique",
    "Ulam.InitParse.C139_stops",
    "Ulam.InitParse.C139_exactly_partial",
    "Ulam.InitParse.C139_unclosed_fails",
    "Ulam.InitParse.C139_left_out_fails",
    "Ulam.InitParse.C139_commas_fails",
    "Ulam.InitParse.C139_reported"
   ],
   "note": "All well-formed lists are read back, and for lists without arrays nothing else is accepted; lists for arrays that are not well-formed are accepted in the cases of the theorems C139_unclosed_fails, C139_left_out_fails, C139_commas_fails."
  },
  {
   "property": "C140",
   "status": "partial",
   "theorems": [
    "Ulam.CallParse.C140_reads_back",
    "Ulam.CallParse.C140_exactly_partial",
    "Ulam.CallParse.C140_reported",
    "Ulam.CallParse.C140_commas_fails",
    "Ulam.CallParse.C140_call_reads_back",
    "Ulam.CallParse.C140_call_exactly_partial",
    "Ulam.CallParse.C140_call_commas_fails"
   ],
   "note": "Well-formed lists are read back, and exactly the lists of a looser notation are accepted; that commas between parameters are not checked and that places without an argument are skipped in calls is proved (C140_commas_fails, C140_call_commas_fails)."
  },
  {
   "property": "C141",
   "status": "partial",
   "theorems": [
    "Ulam.RefRec.C141_references_partial",
    "Ulam.RefRec.C141_recursion_fails",
    "Ulam.RefRec.C141_member_fails"
   ],
   "note": "All executions without a reference declared again during its life, and those where such a reference is always initialised with the same variable of its function; the other case is refuted (C141_recursion_fails, C141_member_fails)."
  },
  {
   "property": "C142",
   "status": "partial",
   "theorems": [
    "Ulam.AbsAssign.C142_whole",
    "Ulam.AbsAssign.C142_part_partial",
    "Ulam.AbsAssign.C142_wide_fails",
    "Ulam.AbsAssign.C142_pointer_fails",
    "Ulam.AbsAssign.C142_type_fails",
    "Ulam.AbsAssign.C142_beyond"
   ],
   "note": "Whole slots and parts of at most 64 bits of slots without pointers; for the rest the two ways differ (C142_wide_fails, C142_pointer_fails, C142_type_fails)."
  },
  {
   "property": "C143",
   "status": "partial",
   "theorems": [
    "Ulam.EvalStmt.C143_value_partial",
    "Ulam.EvalStmt.C143_statements_partial",
    "Ulam.EvalStmt.C143_list_fails",
    "Ulam.EvalStmt.C143_operand_fails",
    "Ulam.EvalStmt.C143_left_operand"
   ],
   "note": "All but variables initialised with lists whose value is not known from check and label, for which it is refuted (C143_list_fails, C143_operand_fails)."
  },
  {
   "property": "C144",
   "status": "proved",
   "theorems": [
    "Ulam.EvalCtl.C144_sound",
    "Ulam.EvalCtl.C144_complete"
   ],
   "note": "if, while, break, continue, return and sequences; expressions are given by their values and effects (their own stack use is C143); switch, errors and returns of more than one slot are left out"
  },
  {
   "property": "C145",
   "status": "partial",
   "theorems": [
    "Ulam.SlotArray.C145_read_partial",
    "Ulam.SlotArray.C145_read_beyond",
    "Ulam.SlotArray.C145_store_partial",
    "Ulam.SlotArray.C145_store_outside_fails",
    "Ulam.SlotArray.C145_read_negative_fails",
    "Ulam.SlotArray.C145_copy"
   ],
   "note": "within the array: reads, stores and copies proved; missing, as the code does not do it: that stores outside of the array and negative subscripts are refused (refuted by C145_store_outside_fails and C145_read_negative_fails)"
  },
  {
   "property": "C146",
   "status": "proved",
   "theorems": [
    "Ulam.SymTab.C146_add",
    "Ulam.SymTab.C146_remove",
    "Ulam.SymTab.C146_replace_symbol",
    "Ulam.SymTab.C146_replace_name",
    "Ulam.SymTab.C146_merge",
    "Ulam.SymTab.C146_copy",
    "Ulam.SymTab.C146_copy_common",
    "Ulam.SymTab.C146_rename"
   ],
   "note": "tables as associations without order; ownership (deletion) of symbols, aliases of types and default arguments are left out"
  },
  {
   "property": "C147",
   "status": "proved",
   "theorems": [
    "Ulam.UtiMap.C147_map",
    "Ulam.UtiMap.C147_kept",
    "Ulam.UtiMap.C147_again",
    "Ulam.UtiMap.C147_requests",
    "Ulam.UtiMap.C147_clone"
   ],
   "note": "the map and its requests; ancestors, aliases and the conditions for a type to be copied are left out"
  },
  {
   "property": "C148",
   "status": "proved",
   "theorems": [
    "Ulam.Kin.C148_stub_found",
    "Ulam.Kin.C148_stub_decided",
    "Ulam.Kin.C148_bits",
    "Ulam.Kin.C148_bits_subclass",
    "Ulam.Kin.C148_mapped"
   ],
   "note": ""
  },
  {
   "property": "C149",
   "status": "partial",
   "theorems": [
    "Ulam.PackKin.C149_answer_partial",
    "Ulam.PackKin.C149_answer_fails",
    "Ulam.PackKin.C149_all_packed",
    "Ulam.PackKin.C149_stops",
    "Ulam.PackKin.C149_incomplete"
   ],
   "note": "The answer is yes only if no class of the hierarchy lacks a superclass; C149_answer_fails shows that otherwise it is never yes, so the full claim is false of the code."
  }
 ]
}