{
 "claims": [
  {
   "property": "C01",
   "status": "partial",
   "theorems": [
    "Hotmeal.C01_violated_silently",
    "Hotmeal.Machine.C01_on_the_machine_partial",
    "Hotmeal.C01_round_trip_pieces_partial",
    "Hotmeal.C01_round_trip_partial",
    "Hotmeal.C01_round_trip_opaque_partial",
    "Hotmeal.C01_round_trip_layered_partial",
    "Hotmeal.C01_violated",
    "Hotmeal.C01_needs_no_collision"
   ],
   "note": "The code violates the full statement (C01_violated: apply_patches fails; C01_violated_silently: wrong body), when a matched node has to move below itself. The partial theorems hold for all documents with a plain body, collision-free hash and without such a Move (or with layered kinds). Opaque content: see C01_round_trip_opaque_partial. C01_round_trip_pieces_partial needs no condition on the edit script either: it is enough that the nodes outside of unchanged pieces are layered, however the pieces are nested inside and wherever they are now."
  },
  {
   "property": "C02",
   "status": "partial",
   "theorems": [
    "Hotmeal.C02_every_prefix_applies_partial",
    "Hotmeal.C02_violated"
   ],
   "note": "Violated by the code for the same inputs as C01 (C02_violated). The partial theorem covers every prefix of the patch list under the hypotheses of C01."
  },
  {
   "property": "C03",
   "status": "partial",
   "theorems": [
    "Hotmeal.C03_patches_hit_their_nodes_partial"
   ],
   "note": "Under the hypotheses of C01_round_trip_opaque_partial; false in general because of C02_violated."
  },
  {
   "property": "C04",
   "status": "proved",
   "theorems": [
    "Hotmeal.C04_identical_documents_need_no_patches",
    "Hotmeal.C04_no_patches_to_itself",
    "Hotmeal.C04_no_bodies"
   ],
   "note": ""
  },
  {
   "property": "C05",
   "status": "partial",
   "theorems": [
    "Hotmeal.C05_body_attrs_partial",
    "Hotmeal.C05_stale_attrs_stay",
    "Hotmeal.C05_violated"
   ],
   "note": "Violated by the code: attributes of the old body are invisible to diff (C05_violated, C05_stale_attrs_stay)."
  },
  {
   "property": "C06",
   "status": "proved",
   "theorems": [
    "Hotmeal.C06_any_patches",
    "Hotmeal.C06_outside_untouched",
    "Hotmeal.C06_any_patches_no_body",
    "Hotmeal.C06_no_body",
    "Hotmeal.C06_foreign_body_removed"
   ],
   "note": "For all pairs of sound documents, with or without body, without condition on hash, opacity or script. SameBodyNs says that both bodies have the same namespace, as html5ever guarantees; C06_foreign_body_removed shows that it is needed."
  },
  {
   "property": "C07",
   "status": "proved",
   "theorems": [
    "Hotmeal.C07_body_created",
    "Hotmeal.C07_body_emptied",
    "Hotmeal.C07_no_bodies"
   ],
   "note": ""
  },
  {
   "property": "C08",
   "status": "proved",
   "theorems": [
    "Hotmeal.C08_matching_one_to_one"
   ],
   "note": ""
  },
  {
   "property": "C09",
   "status": "proved",
   "theorems": [
    "Hotmeal.C09_same_kind",
    "Hotmeal.C09_same_kind_diff"
   ],
   "note": "NoCollision is needed inside subtrees that are matched by equal hash."
  },
  {
   "property": "C10",
   "status": "proved",
   "theorems": [
    "Hotmeal.C10_inserts_are_the_unmatched",
    "Hotmeal.C10_inserted_once_parents_first"
   ],
   "note": ""
  },
  {
   "property": "C11",
   "status": "proved",
   "theorems": [
    "Hotmeal.C11_deletes_are_the_unmatched",
    "Hotmeal.C11_deleted_once_children_first",
    "Hotmeal.C11_phases_in_order"
   ],
   "note": ""
  },
  {
   "property": "C12",
   "status": "proved",
   "theorems": [
    "Hotmeal.C12_moves_exactly_when_needed",
    "Hotmeal.C12_moved_once"
   ],
   "note": ""
  },
  {
   "property": "C13",
   "status": "proved",
   "theorems": [
    "Hotmeal.C13_attr_update_iff_differ",
    "Hotmeal.C13_text_updates_exactly_when_needed",
    "Hotmeal.C13_prop_updates_exactly_when_needed"
   ],
   "note": ""
  },
  {
   "property": "C14",
   "status": "proved",
   "theorems": [
    "Hotmeal.C14_update_reproduces_target",
    "Hotmeal.C14_update_patch"
   ],
   "note": ""
  },
  {
   "property": "C15",
   "status": "proved",
   "theorems": [
    "Hotmeal.C15_den_pos",
    "Hotmeal.C15_symmetric",
    "Hotmeal.C15_le_one",
    "Hotmeal.C15_one_iff",
    "Hotmeal.C15_zero_iff"
   ],
   "note": ""
  },
  {
   "property": "C16",
   "status": "partial",
   "theorems": [
    "Hotmeal.C16_slots_numbered",
    "Hotmeal.C16_slots_defined_before_use_partial",
    "Hotmeal.C16_violated"
   ],
   "note": "Numbering is proved for every diff. Use before definition is possible when an opaque element is in the new document (C16_violated), otherwise excluded under the hypotheses of C01."
  },
  {
   "property": "C17",
   "status": "partial",
   "theorems": [
    "Hotmeal.C17_no_shifting_partial",
    "Hotmeal.C17_violated"
   ],
   "note": "Under the hypotheses of C01; C17_violated otherwise."
  },
  {
   "property": "C18",
   "status": "proved",
   "theorems": [
    "Hotmeal.Document.C18_links_stay_a_tree",
    "Hotmeal.Document.C18_api_keeps_sound",
    "Hotmeal.Document.C18_append_effect",
    "Hotmeal.Document.C18_insert_effect",
    "Hotmeal.Document.C18_remove_effect",
    "Hotmeal.Document.C18_create_effect"
   ],
   "note": ""
  },
  {
   "property": "C19",
   "status": "proved",
   "theorems": [
    "Hotmeal.Document.C19_get_set",
    "Hotmeal.Document.C19_get_set_other",
    "Hotmeal.Document.C19_set_names",
    "Hotmeal.Document.C19_set_unique",
    "Hotmeal.Document.C19_get_remove",
    "Hotmeal.Document.C19_remove_names",
    "Hotmeal.Document.C19_remove_unique",
    "Hotmeal.Document.C19_history",
    "Hotmeal.Document.C19_document"
   ],
   "note": ""
  },
  {
   "property": "C20",
   "status": "proved",
   "theorems": [
    "Hotmeal.C20_text_round_trip",
    "Hotmeal.C20_no_tag",
    "Hotmeal.C20_amp_is_reference",
    "Hotmeal.C20_text_node"
   ],
   "note": ""
  },
  {
   "property": "C21",
   "status": "proved",
   "theorems": [
    "Hotmeal.C21_attr_round_trip",
    "Hotmeal.C21_no_special",
    "Hotmeal.C21_value_delimited"
   ],
   "note": ""
  },
  {
   "property": "C22",
   "status": "proved",
   "theorems": [
    "Hotmeal.C22_empty_text_invisible",
    "Hotmeal.C22_equal_up_to_empty_text",
    "Hotmeal.C22_insert_empty"
   ],
   "note": ""
  },
  {
   "property": "C23",
   "status": "proved",
   "theorems": [
    "Hotmeal.C23_html_determines_forest",
    "Hotmeal.C23_html_determines_body"
   ],
   "note": ""
  },
  {
   "property": "C24",
   "status": "proved",
   "theorems": [
    "Hotmeal.C24_element",
    "Hotmeal.C24_text",
    "Hotmeal.C24_page"
   ],
   "note": ""
  },
  {
   "property": "C25",
   "status": "proved",
   "theorems": [
    "Hotmeal.C25_empty_is_identity"
   ],
   "note": ""
  },
  {
   "property": "C26",
   "status": "partial",
   "theorems": [
    "Hotmeal.C26_violated_insert_below_text",
    "Hotmeal.C26_bad_target",
    "Hotmeal.C26_bad_insertion_point",
    "Hotmeal.C26_not_a_text_node",
    "Hotmeal.C26_not_an_element",
    "Hotmeal.C26_bad_move_target",
    "Hotmeal.C26_stops_at_first_error",
    "Hotmeal.C26_error_from_first_failing",
    "Hotmeal.C26_failed_patch_changes_nothing_partial",
    "Hotmeal.C26_error_keeps_earlier_effect_partial",
    "Hotmeal.C26_failed_move_loses_node",
    "Hotmeal.C26_refused_iff",
    "Hotmeal.C26_move_outcome"
   ],
   "note": "All error cases are proved, and that the list stops there. A failing Move is not undone: C26_failed_move_loses_node. Inserting below a text node succeeds and the content is lost (C26_violated_insert_below_text). The converse is C26_refused_iff: on a well-formed page, a patch other than a Move is refused exactly for one of these reasons and applied in all other cases. C26_move_outcome says the same of Move: it is refused exactly if its target is no place of the page without its node, and applied if that place is not below the node."
  },
  {
   "property": "C27",
   "status": "proved",
   "theorems": [
    "Hotmeal.Server.C27_cache_is_last_html",
    "Hotmeal.Server.C27_head_is_last",
    "Hotmeal.Server.C27_cached_routes",
    "Hotmeal.Server.C27_other_routes",
    "Hotmeal.Server.C27_returns"
   ],
   "note": ""
  },
  {
   "property": "C28",
   "status": "partial",
   "theorems": [
    "Hotmeal.C28_client_converges_partial",
    "Hotmeal.C28_client_converges_opaque_partial",
    "Hotmeal.C28_violated_opaque",
    "Hotmeal.C28_violated",
    "Hotmeal.C28_violated_case",
    "Hotmeal.C28_violated_tag_case"
   ],
   "note": "Violated by the code for the same reasons as C01, C37 and C31 (C28_violated_case: lower-cased attribute names of SVG; C28_violated_tag_case: lower-cased element names of SVG). The partial theorems cover any sequence of updates between pages that satisfy the hypotheses of C31."
  },
  {
   "property": "C29",
   "status": "proved",
   "theorems": [
    "Hotmeal.Server.C29_reload_iff",
    "Hotmeal.Server.C29_none_iff",
    "Hotmeal.Server.C29_patches_iff",
    "Hotmeal.Server.C29_no_head",
    "Hotmeal.Server.C29_head"
   ],
   "note": ""
  },
  {
   "property": "C30",
   "status": "proved",
   "theorems": [
    "Hotmeal.C30_after_head",
    "Hotmeal.C30_prepend",
    "Hotmeal.C30_nothing_lost",
    "Hotmeal.C30_header_is_taken_for_head"
   ],
   "note": ""
  },
  {
   "property": "C31",
   "status": "partial",
   "theorems": [
    "Hotmeal.C31_browser_agrees_partial",
    "Hotmeal.C31_names_from_new",
    "Hotmeal.C31_browser_shows_new_partial",
    "Hotmeal.C31_violated",
    "Hotmeal.C31_violated_case",
    "Hotmeal.C31_violated_names",
    "Hotmeal.Json.C31_json_round_trip_partial"
   ],
   "note": "Violated by the code for a Move below itself (C31_violated), for names with capitals, which setAttribute lower-cases (C31_violated_case), and for names setAttribute rejects on existing elements (C31_violated_names). The partial theorem covers every prefix under the hypotheses of C01, plain attribute names, and names that the DOM accepts and keeps; by C31_names_from_new it is enough that the names of the new document are such."
  },
  {
   "property": "C32",
   "status": "proved",
   "theorems": [
    "Hotmeal.C32_doctype_detection",
    "Hotmeal.C32_doctype_kept",
    "Hotmeal.C32_input_kept"
   ],
   "note": ""
  },
  {
   "property": "C33",
   "status": "proved",
   "theorems": [
    "Hotmeal.Sink.C33_append_text",
    "Hotmeal.Sink.C33_text_before_sibling"
   ],
   "note": ""
  },
  {
   "property": "C34",
   "status": "proved",
   "theorems": [
    "Hotmeal.Sink.C34_adds_missing",
    "Hotmeal.Sink.C34_values",
    "Hotmeal.Sink.C34_unique",
    "Hotmeal.Sink.C34_document"
   ],
   "note": ""
  },
  {
   "property": "C35",
   "status": "proved",
   "theorems": [
    "Hotmeal.C35_into_owned",
    "Hotmeal.C35_names",
    "Hotmeal.C35_no_empty_prefix",
    "Hotmeal.C35_push_str",
    "Hotmeal.C35_names_injective"
   ],
   "note": ""
  },
  {
   "property": "C36",
   "status": "proved",
   "theorems": [
    "Hotmeal.C36_script_avoids_opaque_content"
   ],
   "note": ""
  },
  {
   "property": "C37",
   "status": "partial",
   "theorems": [
    "Hotmeal.C37_one_report_each_partial",
    "Hotmeal.C37_path_without_moves_partial",
    "Hotmeal.C37_violated_path",
    "Hotmeal.C37_violated_attributes"
   ],
   "note": "Count and content of the reports are proved for all documents. The paths are those of the old document (C37_violated_path); attribute changes inside the content are not reported (C37_violated_attributes)."
  },
  {
   "property": "C38",
   "status": "partial",
   "theorems": [
    "Hotmeal.C38_attribute_changes_give_attribute_patches_partial",
    "Hotmeal.C38_violated"
   ],
   "note": "Violated when the opaque attribute itself is added or removed (C38_violated); proved otherwise, for any hash."
  },
  {
   "property": "C39",
   "status": "proved",
   "theorems": [
    "Hotmeal.Arena.C39_walks_terminate",
    "Hotmeal.Arena.C39_post_order_terminates",
    "Hotmeal.Arena.C39_ancestor_walk_terminates",
    "Hotmeal.C39_candidate_loop_terminates",
    "Hotmeal.C39_match_subtrees_terminates"
   ],
   "note": ""
  },
  {
   "property": "C40",
   "status": "proved",
   "theorems": [
    "Hotmeal.Arena.C40_height",
    "Hotmeal.Arena.C40_pre_order",
    "Hotmeal.Arena.C40_post_order"
   ],
   "note": ""
  },
  {
   "property": "C41",
   "status": "partial",
   "theorems": [
    "Hotmeal.C41_namespaces_partial",
    "Hotmeal.C41_violated"
   ],
   "note": "Violated for inserted foreign elements (C41_violated); proved for kept elements and HTML elements."
  },
  {
   "property": "C42",
   "status": "proved",
   "theorems": [
    "Hotmeal.C42_bounds",
    "Hotmeal.C42_monotone_on_failure",
    "Hotmeal.C42_exact",
    "Hotmeal.C42_reset"
   ],
   "note": ""
  },
  {
   "property": "C43",
   "status": "partial",
   "theorems": [
    "Hotmeal.Sink.C43_body_found_partial",
    "Hotmeal.Sink.C43_violated"
   ],
   "note": "Violated for a comment before the html element (C43_violated)."
  },
  {
   "property": "C44",
   "status": "proved",
   "theorems": [
    "Hotmeal.Sink.C44_parser_builds_sound_documents"
   ],
   "note": ""
  },
  {
   "property": "C45",
   "status": "partial",
   "theorems": [
    "Hotmeal.C45_patches_arrive_unchanged_partial",
    "Hotmeal.C45_violated"
   ],
   "note": "Violated for attributes with an empty prefix (C45_violated); proved for all other documents."
  },
  {
   "property": "C46",
   "status": "proved",
   "theorems": [
    "Hotmeal.C46_patches_rewrite_the_tree",
    "Hotmeal.C46_patched_html",
    "Hotmeal.C46_patches_create_the_body"
   ],
   "note": ""
  },
  {
   "property": "C47",
   "status": "proved",
   "theorems": [
    "Hotmeal.C47_patches_rewrite_the_page",
    "Hotmeal.C47_appliers_differ"
   ],
   "note": "For patches whose names the DOM accepts and keeps; what happens to others is modelled (Model/WebDom) and covered by C50 and the witnesses under C31."
  },
  {
   "property": "C48",
   "status": "proved",
   "theorems": [
    "Hotmeal.C48_diff_total"
   ],
   "note": "No hypothesis on hash, opacity or script."
  },
  {
   "property": "C49",
   "status": "partial",
   "theorems": [
    "Hotmeal.Postcard.C49_reconnect_bytes_partial",
    "Hotmeal.C49_reconnect_partial",
    "Hotmeal.C49_reload_heals_partial",
    "Hotmeal.C49_violated"
   ],
   "note": "Violated by the code: the client does not ask for the current page when it reconnects, and patches of later updates are applied to the page it has (C49_violated). Partial: missed calls that do not change the HTML of the route are harmless, and a Reload or HeadChanged event heals. C49_reconnect_bytes_partial: the same for a client that gets its events as bytes."
  },
  {
   "property": "C50",
   "status": "partial",
   "theorems": [
    "Hotmeal.C50_fallback_html_partial",
    "Hotmeal.C50_fallback_inserts_partial",
    "Hotmeal.C50_violated_void",
    "Hotmeal.C50_violated_raw"
   ],
   "note": "Violated by the code for void elements (written with a closing tag) and raw text elements (escaped). The partial theorem covers all other content; the browser's parser is a parameter."
  },
  {
   "property": "C51",
   "status": "partial",
   "theorems": [
    "Hotmeal.C51_text_edits_give_text_patches_partial",
    "Hotmeal.C51_violated",
    "Hotmeal.C51_violated_by_equal_texts",
    "Hotmeal.C51_violated_by_body_attributes"
   ],
   "note": "Violated by the code: the edited text of a small page, a body with attributes, or a text that becomes equal to a sibling's make it create elements again (three witnesses). The partial theorem covers edits that leave at least half of the nodes with unchanged subtrees, whose changed subtrees do not equal others at the same depth, without body attributes and opaque elements; for those it also gives the exact SetText patches and the round trip."
  },
  {
   "property": "C52",
   "status": "partial",
   "theorems": [
    "Hotmeal.C52_kept_pieces_partial",
    "Hotmeal.C52_browser_keeps_pieces_partial",
    "Hotmeal.C52_unique_content_is_kept_partial",
    "Hotmeal.C52_browser_keeps_unique_content_partial",
    "Hotmeal.C52_violated",
    "Hotmeal.C52_violated_by_repeated_text",
    "Hotmeal.C52_unique_content_beside_widgets_partial"
   ],
   "note": "Violated by the code for content whose ancestors differ in number or name (wrapping a paragraph in a div recreates it), and not valid for the nodes inside such content (a text that occurs again elsewhere is torn out of an unchanged paragraph). The partial theorems, for the library and for the browser's DOM, cover every piece of content that occurs once whose ancestors are pairwise of the same name, in pages without opaque elements, and, in C52_unique_content_beside_widgets_partial, beside opaque elements filled by scripts if no two elements of one name differ in being opaque; edit scripts without a Move of a node below itself. C52_kept_pieces_partial and C52_browser_keeps_pieces_partial: the same for all nodes of an unchanged piece, also content that occurs several times inside of the piece (texts that also occur elsewhere excepted)."
  },
  {
   "property": "C53",
   "status": "proved",
   "theorems": [
    "Hotmeal.Postcard.C53_any_json",
    "Hotmeal.C53_document_stays_a_tree",
    "Hotmeal.C53_page_stays_a_tree",
    "Hotmeal.C53_loop_outside_the_page"
   ],
   "note": "Proved for the library (also after an error) and for the browser client on any DOM. Nodes that do not belong to the page any more can be linked into a loop (C53_loop_outside_the_page). C53_any_json: whatever text is given to the JSON entry point."
  },
  {
   "property": "C54",
   "status": "proved",
   "theorems": [
    "Hotmeal.C54_content_comes_from_the_new_page"
   ],
   "note": "No hypothesis on hash, opacity or script."
  },
  {
   "property": "C55",
   "status": "proved",
   "theorems": [
    "Hotmeal.C55_moves_bounded",
    "Hotmeal.C55_moves_bounded_by_bodies",
    "Hotmeal.C55_nothing_is_sent_twice",
    "Hotmeal.C55_few_patches",
    "Hotmeal.C55_total"
   ],
   "note": "No hypothesis on hash or opacity. The linear bound on Moves excludes, as the property does, Moves of a node below itself; C55_moves_bounded gives a quadratic bound in all cases. C55_moves_bounded_by_bodies: for comparable pages without collisions, in terms of the bodies."
  },
  {
   "property": "C56",
   "status": "proved",
   "theorems": [
    "Hotmeal.F64.C56_rounds_to_nearest_even",
    "Hotmeal.F64.C56_matching_is_exact",
    "Hotmeal.F64.C56_diff_is_exact"
   ],
   "note": "Doubles are rational numbers rounded to 53 bits, nearest even, without bounds on the exponent (no overflow or subnormal numbers occur). Elements may have up to 2^50 attributes."
  },
  {
   "property": "C57",
   "status": "proved",
   "theorems": [
    "Hotmeal.C57_borrowing_keeps_the_text",
    "Hotmeal.C57_operations_act_on_the_text",
    "Hotmeal.C57_text_lasts",
    "Hotmeal.C57_empty_piece_inside_a_character"
   ],
   "note": "Over a memory of bytes, with the UTF-8 encoding of Lean's library. An empty piece must not point into the middle of a character of the input (C57_empty_piece_inside_a_character); tendril gives empty strings a constant address."
  },
  {
   "property": "C58",
   "status": "partial",
   "theorems": [
    "Hotmeal.C58_unchanged_block_is_not_touched_partial",
    "Hotmeal.C58_browser_leaves_unchanged_block_partial",
    "Hotmeal.C58_violated",
    "Hotmeal.C58_unchanged_block_beside_widgets_partial",
    "Hotmeal.C58_browser_leaves_block_beside_widgets_partial",
    "Hotmeal.C58_violated_by_widgets"
   ],
   "note": "Proved when no part of the block has the content of a part of the page outside of it, in the library and in the browser, also for pages with opaque elements that scripts have filled, provided that no name is used for opaque and ordinary elements and that opaque elements of the block have names of their own. C58_violated: an item that the unchanged list shares with a changed list is moved out of it. C58_violated_by_widgets: an opaque element of the unchanged block is moved out of it when an opaque element of the same name is added elsewhere."
  },
  {
   "property": "C59",
   "status": "proved",
   "theorems": [
    "Hotmeal.C59_patches_depend_on_the_bodies_only"
   ],
   "note": "For the model, in which iteration over candidates follows document order as in the code; the hash must have no collision between the two documents."
  },
  {
   "property": "C60",
   "status": "partial",
   "theorems": [
    "Hotmeal.C60_appliers_agree_partial",
    "Hotmeal.C60_violated_room",
    "Hotmeal.C60_violated_text",
    "Hotmeal.C60_violated_report",
    "Hotmeal.C60_violated_names"
   ],
   "note": "Proved for lists whose patches are neutral when their turn comes: what is put somewhere has a slot or goes beyond the last child, elements get no text, names are told apart by how they are written, no reports. For each of these four restrictions a witness shows that the appliers differ without it. Lists on which the specification of C46 says nothing (for example those that fail) are not covered."
  },
  {
   "property": "C61",
   "status": "partial",
   "theorems": [
    "Hotmeal.C61_patches_do_not_grow_the_page",
    "Hotmeal.C61_page_does_not_grow_partial",
    "Hotmeal.C61_document_does_not_grow_partial",
    "Hotmeal.C61_violated"
   ],
   "note": "Proved for the page, for sequences of any length and also for patches of any origin, and for a document that is compared with each new version itself. Missing: edit scripts that move a node below itself, names the DOM rejects. It is false for a library document that gets patches computed from re-rendered versions (C61_violated: one more empty text per turn, for every number of turns)."
  },
  {
   "property": "C62",
   "status": "partial",
   "theorems": [
    "Hotmeal.C62_rewriting_gives_the_new_body_partial",
    "Hotmeal.C62_any_copy_is_updated_partial",
    "Hotmeal.C62_rewriting_of_the_page_partial",
    "Hotmeal.C62_any_page_is_updated_partial"
   ],
   "note": "Proved by showing that the list, read as rewriting of trees (no ids, no arena), turns the old tree into the new one, and by C46/C47. Missing, as for C01: edit scripts that move a node below itself (C01_violated) and opaque elements that differ; the attributes of the body are those of the new one only if it has any (C05_violated); in the page, names that the DOM rejects or changes."
  },
  {
   "property": "C63",
   "status": "proved",
   "theorems": [
    "Hotmeal.C63_every_new_node_is_described",
    "Hotmeal.C63_nothing_else_is_described",
    "Hotmeal.C63_every_node_is_placed",
    "Hotmeal.C63_root",
    "Hotmeal.C63_kept_content",
    "Hotmeal.C63_fresh_kind",
    "Hotmeal.C63_script_determines_new_tree",
    "Hotmeal.C63_cinereus",
    "Hotmeal.C63_diff",
    "Hotmeal.C63_needs_matched_roots"
   ],
   "note": "Proved for every one-to-one matching of nodes of the same kind that matches the roots and leaves opaque content alone, so also for the pages whose patches go wrong (C01_violated): the fault is in the order of execution, not in the script. C63_diff and C63_cinereus show that the matchings of diff and of the crate are such matchings. C63_needs_matched_roots: with unmatched roots the new root is not described. Text and attributes of an inserted node are not in the script; it names the node of the new tree."
  },
  {
   "property": "C64",
   "status": "partial",
   "theorems": [
    "Hotmeal.C64_outside_unchanged",
    "Hotmeal.C64_mount_point_follows_partial",
    "Hotmeal.C64_mount_point_lost",
    "Hotmeal.C64_body_selector",
    "Hotmeal.C64_css_selector",
    "Hotmeal.C64_class_selector",
    "Hotmeal.C64_attribute_selectors"
   ],
   "note": "C64_outside_unchanged holds for all patch lists of diff on all pages. For the rest, as in C01 and C28, hash collisions, moves of a node below itself and changed opaque content are excluded. The claim about the element's own attributes is violated when the body of a version has attributes: they replace those of the mount point, the selector then finds nothing and the next update fails (C64_mount_point_lost). Selectors are functions of the page; Css.outer shows for tags, ids, classes, attributes, child and descendant combinators that they do not look into the mount point. C64_body_selector, C64_css_selector, C64_class_selector and C64_attribute_selectors say which element a selector finds, for every page."
  },
  {
   "property": "C65",
   "status": "partial",
   "theorems": [
    "Hotmeal.C65_loader_script_partial",
    "Hotmeal.C65_quoting_needed",
    "Hotmeal.C65_violated",
    "Hotmeal.C65_injection"
   ],
   "note": "The reading side (script end tag, JavaScript tokens) is a specification of its own, Spec/Script. Missing and violated: arguments with double quotes, backslashes, line ends or `<` (C65_violated, C65_injection); C65_quoting_needed shows for quotes, backslashes and line ends that each of them, anywhere in an argument, changes its value or breaks the literal."
  },
  {
   "property": "C66",
   "status": "proved",
   "theorems": [
    "Hotmeal.C66_numbers_straight",
    "Hotmeal.C66_fits_u32_straight",
    "Hotmeal.C66_numbers",
    "Hotmeal.C66_fits_u32",
    "Hotmeal.C66_numbers_of_bodies",
    "Hotmeal.C66_bodies_fit_u32"
   ],
   "note": "For all pairs of documents. The sharper bound (2^32 nodes) is for pairs for which no node is moved below itself. C66_numbers_of_bodies and C66_bodies_fit_u32 count the nodes of the bodies only, for comparable pages without collisions; with Parsed.size_le (a body has no more nodes than the text of its page has characters) the theorems C84 and C85 bound the length of the texts instead of the number of nodes."
  },
  {
   "property": "C67",
   "status": "proved",
   "theorems": [
    "Hotmeal.C67_what_is_read",
    "Hotmeal.C67_read_once",
    "Hotmeal.C67_nothing_lost",
    "Hotmeal.C67_surprising"
   ],
   "note": "C67_surprising gives two inputs for which the rule may not be what a user expects (finding 25)."
  },
  {
   "property": "C68",
   "status": "partial",
   "theorems": [
    "Hotmeal.C68_appending_partial",
    "Hotmeal.C68_truncating_partial",
    "Hotmeal.C68_round_trip",
    "Hotmeal.C68_violated",
    "Hotmeal.C68_prepending_moves"
   ],
   "note": "C68_appending_partial and C68_truncating_partial give the exact list of patches for pages without opaque elements (hypothesis Clear) when no node of the kept part has the content of a node outside of it (SameBlock), with the hash assumed free of collisions. Missing: repeated contents, where the claim is false (C68_violated, finding 26), and opaque elements. C68_round_trip: applying the patches gives the new page."
  },
  {
   "property": "C69",
   "status": "proved",
   "theorems": [
    "Hotmeal.Tables.C69_table",
    "Hotmeal.Tables.C69_stored_hashes",
    "Hotmeal.Tables.C69_tables",
    "Hotmeal.Tables.C69_reproducible",
    "Hotmeal.Tables.C69_cached_positions",
    "Hotmeal.Tables.C69_similarity"
   ],
   "note": "Model/Tables repeats diff with the node table, the recomputed hashes, the cached positions, the lazy descendant sets and the matching as growing vectors, in a state monad, with the order of set iteration as a parameter. C69_tables: it returns what Hotmeal.diff returns. C69_reproducible: two runs with different orders agree. C69_table, C69_stored_hashes, C69_cached_positions: what the tables hold. C69_similarity: the attribute score does not depend on the enumeration of the name sets."
  },
  {
   "property": "C70",
   "status": "partial",
   "theorems": [
    "Hotmeal.Hash.C70_input_determines_node",
    "Hotmeal.Hash.C70_no_collision",
    "Hotmeal.Hash.C70_no_patches_no_change_partial",
    "Hotmeal.Hash.C70_renamed_elements_are_missed",
    "Hotmeal.Hash.C70_violated",
    "Hotmeal.Hash.C70_violated_short_names"
   ],
   "note": "C70_no_patches_no_change_partial: for bodies without opaque elements and a hash without collisions on them. C70_input_determines_node and C70_no_collision derive freedom from collisions from that of the hasher and of the 32-bit hash of names, on the inputs that occur. Violated: C70_violated (every hash with finitely many values hides some change), C70_renamed_elements_are_missed (names with the same 32-bit hash, any hasher), C70_violated_short_names (x-a and x-ap, by the published source of string_cache, which is outside of the repository)."
  },
  {
   "property": "C71",
   "status": "partial",
   "theorems": [
    "Hotmeal.C71_new_root_iff_roots_matched",
    "Hotmeal.C71_roots_meet_partial",
    "Hotmeal.C71_emptied_tree_violated"
   ],
   "note": "C71_new_root_iff_roots_matched: the script accounts for the new root exactly when the roots are matched; together with C63_cinereus the description is then complete. C71_roots_meet_partial: they are matched when their kind is theirs alone in the new tree, attributes are similar and not only the new root is childless. Violated otherwise: C71_emptied_tree_violated (every tree whose root loses all children), C63_needs_matched_roots (different kinds)."
  },
  {
   "property": "C72",
   "status": "partial",
   "theorems": [
    "Hotmeal.C72_every_visitor_sees_the_page_partial",
    "Hotmeal.C72_violated",
    "Hotmeal.C72_violated_mixture"
   ],
   "note": "Proved when every page served is the cached one, or the first. Violated for all pairs of versions when a page is served after the content has changed and before diff_route is called (C72_violated); C72_violated_mixture shows a browser that then applies patches meant for another version without an error. The rest of the hypotheses is as in C28."
  },
  {
   "property": "C73",
   "status": "partial",
   "theorems": [
    "Hotmeal.Postcard.C73_any_bytes",
    "Hotmeal.Postcard.C73_any_messages",
    "Hotmeal.C73_errors_are_reported",
    "Hotmeal.C73_failed_patch_changes_nothing_partial",
    "Hotmeal.C73_inserts_fail_first",
    "Hotmeal.C73_page_stays_a_tree",
    "Hotmeal.C73_violated_attributes",
    "Hotmeal.C73_attributes_up_to_the_rejected",
    "Hotmeal.C73_violated_move",
    "Hotmeal.C73_reload_heals_partial",
    "Hotmeal.C73_violated_live"
   ],
   "note": "Proved: errors are those of the client that stops; the page stays a tree with nothing changed outside the mount point; all patches but UpdateProps and Move leave the page as the patches before have made it; the next reload heals. For UpdateProps the page is as if the list of attributes had ended before the rejected name. Violated for UpdateProps (loses all attributes of the element when a name is rejected) and Move (loses the node). C73_violated_live shows that the page can stay wrong even when the change is taken back. C73_any_bytes and C73_any_messages: the same for whatever bytes arrive, written by the server or not (the client takes any message it can read; the model keeps the number of the body, the code looks the body up anew)."
  },
  {
   "property": "C74",
   "status": "partial",
   "theorems": [
    "Hotmeal.C74_scripted_blocks_survive_partial",
    "Hotmeal.C74_violated",
    "Hotmeal.C74_violated_added"
   ],
   "note": "Proved when no part of a changed block has the content of a part of the page outside of it (as C58), without opaque elements, for names the browser keeps. C74_violated: an item that the script has changed is moved to another list, as the server takes it for what it was. C74_violated_added: a node that was added at the end of the body is replaced by the next block that is added there."
  },
  {
   "property": "C75",
   "status": "partial",
   "theorems": [
    "Hotmeal.C75_templates_partial",
    "Hotmeal.C75_loaded_page_partial",
    "Hotmeal.C75_violated_inside",
    "Hotmeal.C75_foreign_template",
    "Hotmeal.C75_violated_changed",
    "Hotmeal.C75_violated_new"
   ],
   "note": "Proved when all templates are in blocks that are the same in both versions (and share no part with the rest, as C74). C75_violated_inside: a patch that leads into a template fails in every page that a browser has made, so changed templates (C75_violated_changed) break the update. C75_violated_new: new templates are shown without content. C75_foreign_template: elements of that name in drawings and formulas are no templates."
  },
  {
   "property": "C76",
   "status": "proved",
   "theorems": [
    "Hotmeal.Machine.C76_machine_is_diff"
   ],
   "note": "Model/Machine puts Model/Tables, Float, Numbers and Hash together. C76_machine_is_diff: the result is that of Hotmeal.diff with the same hash. C01_on_the_machine_partial (listed under C01) draws the conclusion for library and browser: without collisions of the names and hash inputs that occur, the computed patches give the new body in both. Numbers of a path and slot numbers are cast at the end, positions where they are cached."
  },
  {
   "property": "C77",
   "status": "partial",
   "theorems": [
    "Hotmeal.C77_one_update_partial",
    "Hotmeal.C77_document_is_kept_up_to_date_partial",
    "Hotmeal.C77_layered_document_is_kept_up_to_date_partial",
    "Hotmeal.C77_violated",
    "Hotmeal.C77_violated_by_opaque_content",
    "Hotmeal.C77_never_settles"
   ],
   "note": "Proved for sequences of any length: C77_document_is_kept_up_to_date_partial with the conditions of C01 at every step, and C77_layered_document_is_kept_up_to_date_partial, where layered tags replace the condition on edit scripts. C77_one_update_partial says what one update preserves (soundness, body node, namespace). Opaque elements may occur if they are empty in every version and no ordinary element has their name. Missing: opaque elements that the server fills (false, C77_violated_by_opaque_content: the report overwrites another element), a second body, collisions, a Move of a node below itself (C77_violated). C77_never_settles: the document need not become quiet; a removed node leaves an empty text that every later diff asks to remove again, for ever."
  },
  {
   "property": "C78",
   "status": "partial",
   "theorems": [
    "Hotmeal.C78_widgets_survive_partial",
    "Hotmeal.C78_widget_survives_history_partial",
    "Hotmeal.C78_violated",
    "Hotmeal.C78_violated_by_keys"
   ],
   "note": "C78_widgets_survive_partial: every prefix of the patches, for every opaque element on the page, whatever scripts put into it; the page shows the new document afterwards; an opaque element that is the only one of its name stays the same DOM node. C78_widget_survives_history_partial: any number of updates. Missing: opaque and ordinary elements of the same name (false, C78_violated), several opaque elements of one name (false, C78_violated_by_keys), collisions, a Move of a node below itself. The reports at the end of the patch list are covered by C79."
  },
  {
   "property": "C79",
   "status": "partial",
   "theorems": [
    "Hotmeal.C79_event_partial",
    "Hotmeal.C79_session_partial",
    "Hotmeal.C79_widget_stays_partial"
   ],
   "note": "C79_event_partial: one event, with the errors of reports logged; the content of opaque elements is kept and an only widget stays the same DOM node. C79_session_partial: any interleaving of server calls (with reloads) and scripts inside opaque elements. C79_widget_stays_partial: the widget stays the same DOM node in sessions without a reload. Missing: as for C78, opaque and ordinary elements of the same name (false, C78_violated), several opaque elements of one name (false, C78_violated_by_keys), collisions, a Move of a node below itself; scripts that work outside opaque elements."
  },
  {
   "property": "C80",
   "status": "partial",
   "theorems": [
    "Hotmeal.Sink.C80_no_body",
    "Hotmeal.Sink.C80_fragments_never_differ_partial",
    "Hotmeal.Sink.C80_violated"
   ],
   "note": "Violated: a fragment document has no body (C80_no_body), so the diff of any two fragments is empty and applying it changes nothing (C80_fragments_never_differ_partial, all runs of the fragment parser); C80_violated is a concrete pair. What html5ever does with <body> tags in a fragment is a hypothesis (FragmentCall)."
  },
  {
   "property": "C81",
   "status": "proved",
   "theorems": [
    "Hotmeal.Postcard.C81_patches_arrive",
    "Hotmeal.Postcard.C81_diff_arrives",
    "Hotmeal.Postcard.C81_event_arrives",
    "Hotmeal.Postcard.C81_cut_event",
    "Hotmeal.Postcard.C81_cut_patches",
    "Hotmeal.Postcard.C81_unambiguous",
    "Hotmeal.Postcard.C81_session"
   ],
   "note": "For the published postcard format (the crate itself is not in the sandbox). C81_patches_arrive: what is read is what was written, with names sent through QualNameProxy; C81_diff_arrives: unchanged for what diff makes; C81_cut_event, C81_cut_patches: a proper part is rejected; C81_unambiguous; C81_session: a client that gets bytes behaves as one that gets events. Bounds: numbers of 32 bits (C66 shows that diff makes no others for up to 2^30 nodes) and fewer than 2^32 bytes (the browser has 32-bit lengths)."
  },
  {
   "property": "C82",
   "status": "proved",
   "theorems": [
    "Hotmeal.Json.C82_text",
    "Hotmeal.Json.C82_patches_arrive",
    "Hotmeal.Json.C82_diff_arrives",
    "Hotmeal.Json.C82_unambiguous",
    "Hotmeal.Json.C82_cut",
    "Hotmeal.Json.C82_bodies_arrive"
   ],
   "note": "For JSON as in RFC 8259 and the usual form of Rust values in it (the crate itself is not in the sandbox). C82_text: every JSON value is read from its text; C82_patches_arrive: what is read is what was written, with names sent through QualNameProxy; C82_diff_arrives: unchanged for what diff makes (C82_bodies_arrive: whatever is outside of the bodies); C82_unambiguous; C82_cut: a proper part is rejected. The way from diff_html to apply_patches_json on a page is C31_json_round_trip_partial."
  },
  {
   "property": "C83",
   "status": "partial",
   "theorems": [
    "Hotmeal.C83_page_partial",
    "Hotmeal.C83_line_ends_partial",
    "Hotmeal.C83_content_partial",
    "Hotmeal.C83_fragment_partial",
    "Hotmeal.C83_detour_partial",
    "Hotmeal.C83_no_patches_partial",
    "Hotmeal.C83_violated"
   ],
   "note": "Violated by the code (C83_violated): a line feed at the beginning of pre, carriage returns, --> in comments, </script> in scripts, text in iframe, texts next to each other. The partial theorems cover pages that meet the executable conditions okPage and readableL (no select, template, noscript, svg or math; no nesting that the parser repairs) and every parser that agrees with Spec/Reader, a partial reader after the HTML standard, where that gives a result; readsPages_reader and readsFragments_reader show that there are such parsers. C83_line_ends_partial: line ends as on Windows do not matter."
  },
  {
   "property": "C84",
   "status": "partial",
   "theorems": [
    "Hotmeal.C84_text_to_page_partial",
    "Hotmeal.C84_layered_partial",
    "Hotmeal.C84_session_partial",
    "Hotmeal.C84_violated",
    "Hotmeal.C84_scripts_partial"
   ],
   "note": "Violated by the code (C84_violated): two pages whose elements change places as in C01, and an attribute name that the DOM refuses as in C49/C50. The partial theorems cover pages whose text is read as the page (PageTree.ok, see C83) with opaque elements recognised by their tags and empty in the text (for opaque elements with content and with scripts that draw into them, C84_scripts_partial compares the pages apart from that content), names that the DOM accepts, collision-free hashes and either no move of a node below itself or, with nothing assumed about the matching, pages whose elements can be ranked by depth (C84_layered_partial, C84_session_partial, C84_scripts_partial). parsesPages_reader shows that there are parsers as assumed. The texts may have 2^30 characters together (2^29 each in a session)."
  },
  {
   "property": "C85",
   "status": "partial",
   "theorems": [
    "Hotmeal.BodyHtml.C85_set_body",
    "Hotmeal.BodyHtml.C85_set_get_partial",
    "Hotmeal.BodyHtml.C85_versions_partial",
    "Hotmeal.BodyHtml.C85_test_case_partial",
    "Hotmeal.BodyHtml.C85_violated"
   ],
   "note": "Violated by the code (C85_violated): two contents whose elements change places as in C01; and a text that is not the HTML of what it stands for (&quot;) is given back in another form. C85_set_body is about every text and every page with a body. The partial theorems cover contents that are read as they are written (C83), with opaque elements recognised by their tags and empty in the text, names that the DOM accepts, elements that can be ranked by depth, and collision-free hashes. parsesFragments_reader and parsesPages_reader show that there are parsers as assumed. The texts may have fewer than 2^29 characters each. C85_versions_partial also says that the nodes of the body are those of the last content, up to empty texts."
  },
  {
   "property": "C86",
   "status": "proved",
   "theorems": [
    "Hotmeal.C86_slots_store",
    "Hotmeal.C86_slots_take",
    "Hotmeal.C86_slots_new",
    "Hotmeal.C86_one_by_one",
    "Hotmeal.C86_merge",
    "Hotmeal.C86_merge_all",
    "Hotmeal.C86_split",
    "Hotmeal.C86_browser_merge",
    "Hotmeal.C86_browser_split",
    "Hotmeal.C86_browser_kept_slots",
    "Hotmeal.C86_browser_merge_all",
    "Hotmeal.C86_found_again_merge",
    "Hotmeal.C86_found_again_kept_slots",
    "Hotmeal.C86_mount_merge",
    "Hotmeal.C86_updates_at_once",
    "Hotmeal.C86_merge_needs_mount",
    "Hotmeal.C86_cut_needs_slots",
    "Hotmeal.C86_merge_needs_body"
   ],
   "note": "C86_cut_needs_slots, C86_merge_needs_body and C86_merge_needs_mount show that the conditions of splitting and merging are needed. C86_browser_kept_slots and C86_updates_at_once, which find the body anew for each call, are for the body; C86_found_again_kept_slots and C86_found_again_merge are for any selector that finds the same element before each call; C86_mount_merge is for any selector that does not look into the mount point, and C86_browser_merge and C86_browser_split are for any patched element and any patches."
  },
  {
   "property": "C87",
   "status": "proved",
   "theorems": [
    "Hotmeal.Dump.C87_dump_determines",
    "Hotmeal.Dump.C87_dump_determined",
    "Hotmeal.Dump.C87_dump_exists",
    "Hotmeal.Dump.C87_prefix_not_shown"
   ],
   "note": "dbg is what {:?} of the standard library makes of a string; assumed: it writes no line feed, and what it wrote can be read back (DebugStr; debugStr_quote shows that there is such a function). C87_dump_determined needs attributes of an element that differ in more than their prefixes. C87_prefix_not_shown: what the theorem leaves open is really not shown."
  },
  {
   "property": "C88",
   "status": "partial",
   "theorems": [
    "Hotmeal.Dump.C88_dumps_agree_partial",
    "Hotmeal.Dump.C88_after_patches_partial",
    "Hotmeal.Dump.C88_violated",
    "Hotmeal.Dump.C88_texts_confused"
   ],
   "note": "Violated by the code (C88_violated): the two functions print comments differently, and elements whose names are not ASCII (nodeName has ASCII upper case, to_uppercase has the upper case of Unicode); and patches leave empty text nodes in the page that are printed. C88_texts_confused: both print a space and a middle dot alike. C88_dumps_agree_partial covers the page after set_body_inner_html, and C88_after_patches_partial the page after any number of updates as in C85, up to lines of empty texts. Both are for contents that are read as they are written (C83), without comments and with ASCII names, in the namespace of HTML. Assumed of to_uppercase: ASCII strings go to their ASCII upper case."
  },
  {
   "property": "C89",
   "status": "proved",
   "theorems": [
    "Hotmeal.C89_same_outcome",
    "Hotmeal.PatchDebug.C89_printed_alike",
    "Hotmeal.PatchDebug.C89_small_determined",
    "Hotmeal.PatchDebug.C89_one_line",
    "Hotmeal.PatchDebug.C89_diff_kinds",
    "Hotmeal.PatchDebug.C89_lists_alike",
    "Hotmeal.PatchDebug.C89_contents_not_shown"
   ],
   "note": "Assumed of {:?} for strings: one line, and it can be read back from the left (DebugStr; debugStr_quote shows that such a way of writing exists). For SetAttribute patches, which diff never makes (C89_diff_kinds), the name must have no equals sign. C89_contents_not_shown: the line does not tell the attributes and children of what is inserted, nor the rest of long texts. C89_same_outcome adds that patches printed alike are both applied or both refused with the same error."
  },
  {
   "property": "C90",
   "status": "partial",
   "theorems": [
    "Hotmeal.C90_same_refusals_partial",
    "Hotmeal.C90_same_moves_partial",
    "Hotmeal.C90_violated_text_of_element",
    "Hotmeal.C90_violated_below_text",
    "Hotmeal.C90_violated_unused_slot",
    "Hotmeal.C90_violated_move",
    "Hotmeal.C90_violated_names"
   ],
   "note": "Proved for every patch other than a Move that acts on the kind of node it is meant for, with names the browser accepts: both apply it or both refuse it with the same error; and for every Move of a node other than the root to a place in an element that is not below the node (C90_same_moves_partial). False for the others: SetText of an element (only the library refuses), inserts below a text and opaque content of a text (only the client refuses), removal of an unused slot (only the library refuses), Moves of slot 0 or of a slot used before (different errors), names the browser rejects (only the client refuses)."
  },
  {
   "property": "C91",
   "status": "proved",
   "theorems": [
    "Hotmeal.Sink.it.C91_names_come_back",
    "Hotmeal.Sink.it.C91_element_kept",
    "Hotmeal.Sink.it.C91_handles_differ",
    "Hotmeal.Sink.it.C91_namespaces",
    "Hotmeal.Sink.it.C91_other_namespaces"
   ],
   "note": "For the three namespaces that the parser uses; C91_other_namespaces shows that an element with another one would be reported as HTML."
  },
  {
   "property": "C92",
   "status": "proved",
   "theorems": [
    "Hotmeal.Document.C92_forward",
    "Hotmeal.Document.C92_backward",
    "Hotmeal.Document.C92_count",
    "Hotmeal.Document.C92_inverse",
    "Hotmeal.Document.C92_ends",
    "Hotmeal.Document.C92_tour_unique",
    "Hotmeal.Document.C92_document_order",
    "Hotmeal.Document.C92_after_edits",
    "Hotmeal.Document.C92_insert_links",
    "Hotmeal.Document.C92_remove_links"
   ],
   "note": "The model of indextree has lists of children; links between nodes without parent are not modelled."
  },
  {
   "property": "C93",
   "status": "partial",
   "theorems": [
    "Hotmeal.Display.C93_paths",
    "Hotmeal.Display.C93_errors",
    "Hotmeal.Display.C93_errors_one_line",
    "Hotmeal.Display.C93_refusals",
    "Hotmeal.Display.C93_apply_errors",
    "Hotmeal.Display.C93_keys_partial",
    "Hotmeal.Display.C93_violated_text",
    "Hotmeal.Display.C93_violated_colon",
    "Hotmeal.Display.C93_violated_namespace"
   ],
   "note": "Proved for paths, errors and refusals. For properties it is false: an attribute called _text is shown like a text, a name with a colon like a name with a prefix, and namespaces are not shown (C93_violated_*); C93_keys_partial has the rest."
  },
  {
   "property": "C94",
   "status": "proved",
   "theorems": [
    "Hotmeal.Sink.C94_text_kept",
    "Hotmeal.Sink.C94_nothing_invented",
    "Hotmeal.Sink.C94_each_once"
   ],
   "note": "Nodes that the parser has taken out of the tree and not put back are counted too, as they stay in the arena."
  }
 ]
}