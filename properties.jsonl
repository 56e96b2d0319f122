{"id": "C01", "title": "Diff/apply round trip", "statement": "If `patches = diff(old, new)` then `old.apply_patches(patches)` succeeds and afterwards `old.to_body_html()` equals `new.to_body_html()`.", "quantifier": "for every pair of documents (any size, shape, attributes, text, comments) and every hash function without collisions on them", "why_tests_cant": "Tests and fuzzing sample pairs of documents; the set of pairs is infinite and the interaction of inserts, moves, displacement slots and deletes grows with size.", "anchors": ["hotmeal/src/diff.rs: diff, convert_ops_with_shadow, ShadowTree", "hotmeal/src/dom.rs: apply_patches, apply_patch, to_body_html", "cinereus/src/matching.rs: compute_matching", "cinereus/src/chawathe.rs: generate_edit_script"]}
{"id": "C02", "title": "Generated patches always apply", "statement": "No patch list returned by `diff(old, new)` makes `old.apply_patches` return a DiffError or panic: every path resolves, every slot that is referenced exists, and every target has the node type the patch needs.", "quantifier": "for every pair of documents and every prefix of the generated patch list", "why_tests_cant": "A single unresolved path in some rare interleaving of displacement and moves breaks live reload; only a proof over all histories excludes it.", "anchors": ["hotmeal/src/diff.rs: ShadowTree::compute_path, convert_ops_with_shadow", "hotmeal/src/dom.rs: navigate_slot_path, get_slot_parent, apply_patch"]}
{"id": "C03", "title": "Each patch addresses the intended node", "statement": "At the moment a generated patch is applied, the path it carries leads in the document being patched to exactly the node that the edit operation is about (and an insert/move target path leads to the counterpart of the new parent).", "quantifier": "for every document pair, every prefix of the patch list", "why_tests_cant": "Wrong-but-existing targets do not raise errors and can cancel out in small examples.", "anchors": ["hotmeal/src/diff.rs: ShadowTree::compute_path, get_node_ref_with_position", "hotmeal/src/dom.rs: navigate_slot_path"]}
{"id": "C04", "title": "Identical documents need no patches", "statement": "`diff(x, y)` is empty when `x` and `y` have the same body content and attributes are the same (and the old body element itself has no attributes).", "quantifier": "for every document and every structurally identical copy", "why_tests_cant": "Needs the whole matching algorithm to pair every node with its twin, for every tree shape, including repeated identical siblings.", "anchors": ["cinereus/src/matching.rs: top_down_phase, match_subtrees", "cinereus/src/chawathe.rs: generate_edit_script", "hotmeal/src/diff.rs: diff"]}
{"id": "C05", "title": "Body attributes survive the round trip", "statement": "After applying `diff(old, new)`, the body element carries exactly the attributes of the new body.", "quantifier": "for every pair of documents with bodies", "why_tests_cant": "Requires all combinations of old and new body attribute lists; existing tests never put attributes on the old body.", "anchors": ["hotmeal/src/diff.rs: build_tree_from_arena (root_data properties)", "cinereus/src/chawathe.rs: generate_edit_script phase 1"]}
{"id": "C06", "title": "Patching touches nothing outside body", "statement": "`apply_patches` with generated patches changes neither the doctype, nor the root element, nor head, nor any node outside the body subtree.", "quantifier": "for every pair of documents", "why_tests_cant": "A negative property over all nodes and all patch lists.", "anchors": ["hotmeal/src/dom.rs: apply_patches, apply_patch, insert_at"]}
{"id": "C07", "title": "Documents without a body", "statement": "When one or both documents lack a body, diff is still defined and applying it gives the new document's body HTML (empty when it has none).", "quantifier": "for every pair of documents where at least one body is missing", "why_tests_cant": "The children list of the body is unbounded; removal order versus index stability must hold for all lengths.", "anchors": ["hotmeal/src/diff.rs: diff (match old_has_body/new_has_body), create_insert_patch, create_insert_content", "hotmeal/src/dom.rs: ensure_body, apply_patches"]}
{"id": "C08", "title": "Matching is one-to-one", "statement": "The matching returned by `compute_matching` never pairs one node with two partners; `get_a` and `get_b` are mutually inverse and agree with `pairs()`, with `contains_a`/`contains_b` and with `len()`.", "quantifier": "for every two trees, every configuration, every hash assignment (even with collisions)", "why_tests_cant": "Holds only if every one of the eight call sites of `add` is guarded; tests observe a few trees.", "anchors": ["cinereus/src/matching.rs: Matching::add, top_down_phase, match_subtrees, bottom_up_phase"]}
{"id": "C09", "title": "Only nodes of the same kind are matched", "statement": "Every matched pair has the same node kind (same tag and namespace, or both text, or both comment).", "quantifier": "for every two trees whose hashes do not collide", "why_tests_cant": "A cross-kind pair would make later SetText/UpdateProps patches fail; must hold along every matching path.", "anchors": ["cinereus/src/matching.rs: compute_matching", "hotmeal/src/diff.rs: HtmlNodeKind"]}
{"id": "C10", "title": "Every new node is inserted exactly once", "statement": "The edit script contains exactly one Insert for each unmatched, non-opaque-content node of the new tree (other than a parentless root), with that node's parent, child position and kind, and no other Insert; a parent's Insert comes before its children's.", "quantifier": "for every two trees and every matching", "why_tests_cant": "Completeness and uniqueness over all nodes of all trees.", "anchors": ["cinereus/src/chawathe.rs: generate_edit_script phase 2/3"]}
{"id": "C11", "title": "Every vanished node is deleted exactly once", "statement": "The edit script contains exactly one Delete for each unmatched, non-opaque-content node of the old tree and no Delete of a matched node; a child's Delete comes before its parent's, and all Deletes come after all Inserts and Moves.", "quantifier": "for every two trees and every matching", "why_tests_cant": "Completeness, exclusivity and ordering over all nodes of all trees.", "anchors": ["cinereus/src/chawathe.rs: generate_edit_script phase 5"]}
{"id": "C12", "title": "Moves are emitted exactly when needed", "statement": "A matched non-root pair outside opaque content gets exactly one Move when its parents are not matched to each other or its child index differs, to the new parent and new index; otherwise it gets none.", "quantifier": "for every two trees and every one-to-one matching", "why_tests_cant": "Minimality and completeness for all pairs.", "anchors": ["cinereus/src/chawathe.rs: generate_edit_script phase 4"]}
{"id": "C13", "title": "Text and attribute updates are emitted exactly when needed", "statement": "For a matched pair outside opaque content a SetText is emitted iff the texts differ, and an UpdateProps iff the attribute lists (names, values or order) differ; the emitted values are those of the new tree.", "quantifier": "for every two trees with duplicate-free attribute lists and every matching", "why_tests_cant": "All combinations of added, removed, changed and reordered attributes are unbounded.", "anchors": ["cinereus/src/chawathe.rs: generate_edit_script phase 1", "hotmeal/src/diff.rs: HtmlProps::diff"]}
{"id": "C14", "title": "Attribute update reproduces the target list", "statement": "Applying the UpdateProps patch computed from old and new attribute lists to the old element yields exactly the new attribute list, in the new order.", "quantifier": "for every pair of attribute lists without duplicate names", "why_tests_cant": "Unbounded lists, all permutations.", "anchors": ["hotmeal/src/diff.rs: HtmlProps::diff, convert_ops_with_shadow (UpdateProperties)", "hotmeal/src/dom.rs: apply_patch (UpdateProps)"]}
{"id": "C15", "title": "Attribute similarity is a proper score", "statement": "Similarity of two attribute lists is symmetric, between 0 and 1, equal to 1 exactly when both have the same set of names, and 0 exactly when they share none (and are not both empty).", "quantifier": "for every two attribute lists", "why_tests_cant": "Universal over lists.", "anchors": ["hotmeal/src/diff.rs: HtmlProps::similarity"]}
{"id": "C16", "title": "Displacement slots are fresh, dense and always defined before use", "statement": "In a generated patch list the displaced-node slots are numbered 1, 2, 3, ... in order of appearance, and every path starts with slot 0 or with a slot filled by an earlier patch of the list.", "quantifier": "for every pair of documents", "why_tests_cant": "History property over arbitrarily long patch lists.", "anchors": ["hotmeal/src/diff.rs: ShadowTree::create_slot, detach_to_slot, compute_path", "hotmeal/src/dom.rs: insert_at"]}
{"id": "C17", "title": "Edits never shift siblings", "statement": "Applying a generated Insert, Move or Remove leaves every other node of the document at the same child index under the same parent, except the one displaced occupant, which becomes the root of its slot.", "quantifier": "for every document, every generated patch", "why_tests_cant": "This is the invariant that makes precomputed paths valid; must hold for each state reached.", "anchors": ["hotmeal/src/dom.rs: apply_patch, insert_at, insert_at_position", "hotmeal/src/diff.rs: ShadowTree::insert_at_position, move_to_position"]}
{"id": "C18", "title": "DOM editing API keeps the document a tree", "statement": "Any sequence of create/append/insert_before/insert_after/remove/set_attr/remove_attr/set_text calls that does not place a node under itself keeps parent and child links consistent, without duplicates and without cycles.", "quantifier": "for every sequence of API calls on every well-formed document", "why_tests_cant": "Invariant over unbounded call histories.", "anchors": ["hotmeal/src/dom.rs: create_element, create_text, create_comment, append_child, insert_before, insert_after, remove, set_attr, remove_attr, set_text"]}
{"id": "C19", "title": "Attribute setters obey map laws", "statement": "After set_attr(n, v) reading n gives v and every other attribute is unchanged, existing names keep their place and new ones go last; remove_attr(n) removes exactly n; names stay duplicate-free; non-elements are untouched.", "quantifier": "for every element, every sequence of set/remove calls", "why_tests_cant": "Histories of calls are unbounded.", "anchors": ["hotmeal/src/dom.rs: set_attr, remove_attr, apply_patch (SetAttribute, RemoveAttribute)"]}
{"id": "C20", "title": "Text escaping is safe and lossless", "statement": "Serialized text of a text node contains no '<' and every '&' in it starts `&amp;` or `&lt;`; decoding these entities gives back the text.", "quantifier": "for every text string", "why_tests_cant": "All strings.", "anchors": ["hotmeal/src/dom.rs: serialize_node"]}
{"id": "C21", "title": "Attribute escaping is safe and lossless", "statement": "Serialized attribute values contain none of '\"', '<', '>' and decode to the original value, so the value can never terminate the attribute or the tag.", "quantifier": "for every attribute value", "why_tests_cant": "All strings.", "anchors": ["hotmeal/src/dom.rs: serialize_element"]}
{"id": "C22", "title": "Empty text nodes are invisible", "statement": "Inserting or removing empty text nodes anywhere in a tree does not change its serialized HTML.", "quantifier": "for every tree and every set of empty text nodes", "why_tests_cant": "Universal over trees; it is what makes placeholder nodes harmless.", "anchors": ["hotmeal/src/dom.rs: serialize_node, serialize_element, serialize_node_raw"]}
{"id": "C23", "title": "Serialized HTML determines the tree", "statement": "Two trees of ordinary elements with the same serialized HTML are equal up to splitting of adjacent text nodes and empty text nodes.", "quantifier": "for every two trees whose tag and attribute names are plain names, with no comments containing '-->' and no void/raw-text elements with content", "why_tests_cant": "Injectivity over all trees; this is what makes comparing HTML strings a meaningful equality.", "anchors": ["hotmeal/src/dom.rs: serialize_node, serialize_element"]}
{"id": "C24", "title": "Void and raw-text elements", "statement": "A void element serializes to its start tag only; script/style/noscript text is emitted verbatim; every other element has matching start and end tags.", "quantifier": "for every element and content", "why_tests_cant": "All trees.", "anchors": ["hotmeal/src/dom.rs: is_void_element, is_raw_text_element, serialize_element, serialize_node_raw"]}
{"id": "C25", "title": "Applying an empty patch list is the identity", "statement": "`apply_patches(vec![])` succeeds and leaves the document unchanged, even when it has no body.", "quantifier": "for every document", "why_tests_cant": "Universal over documents.", "anchors": ["hotmeal/src/dom.rs: apply_patches"]}
{"id": "C26", "title": "Patch application errors are reported, not silent", "statement": "A patch with an empty path, an unknown slot, an index beyond the children, or a target of the wrong node type returns the corresponding DiffError, and the list application stops there, keeping the effect of the earlier patches only.", "quantifier": "for every document, every slot map and every patch list", "why_tests_cant": "All malformed patches.", "anchors": ["hotmeal/src/dom.rs: navigate_slot_path, get_slot_parent, apply_patch, apply_patches", "hotmeal/src/diff.rs: DiffError"]}
{"id": "C27", "title": "Live-reload server cache tracks the last HTML", "statement": "After any sequence of calls the cached HTML of a route is the HTML of the last call that carried HTML for that route since it was last removed or cleared; other routes are unaffected.", "quantifier": "for every sequence of server calls over any set of routes", "why_tests_cant": "Unbounded histories over unbounded key sets.", "anchors": ["hotmeal-server/src/lib.rs: LiveReloadServer::{cache_html, diff_route, diff_route_with_head, remove_route, clear, cached_routes}"]}
{"id": "C28", "title": "Live-reload clients converge", "statement": "A client that loaded the page when the server cached it and that handles every event since (applying patches, reloading on Reload/HeadChanged) shows the server's current body after any sequence of updates.", "quantifier": "for every sequence of content updates", "why_tests_cant": "Composition of unboundedly many diffs and patch applications.", "anchors": ["hotmeal-server/src/lib.rs: diff_route, diff_route_with_head", "hotmeal-wasm/src/lib.rs: handle_live_reload_event"]}
{"id": "C29", "title": "Server event decision", "statement": "diff_route returns Reload iff the route had no cached HTML (or the diff failed), None iff the HTML is unchanged or needs no patches, and Patches with a non-empty list otherwise; HeadChanged takes precedence and is sent iff the head injections changed, the first empty injection not being a change.", "quantifier": "for every server state, route and HTML", "why_tests_cant": "Decision table over all states and strings.", "anchors": ["hotmeal-server/src/lib.rs: diff_route, diff_route_with_head, cache_head_injections"]}
{"id": "C30", "title": "Head injection placement", "statement": "inject_into_head returns the original text with the content inserted at one point: right after the '>' closing the first `<head` (any letter case), or at the very start if there is none; nothing is lost or reordered.", "quantifier": "for every HTML text and content", "why_tests_cant": "All strings.", "anchors": ["hotmeal-server/src/lib.rs: inject_into_head"]}
{"id": "C31", "title": "Browser and native appliers agree", "statement": "Applying a generated patch list with the browser applier gives the same tree as the native applier, step by step.", "quantifier": "for every pair of documents, every prefix of the patch list", "why_tests_cant": "The authors fuzz this against a real browser; a proof covers every document pair.", "anchors": ["hotmeal-wasm/src/lib.rs: apply_patch, insert_at_position, Slots", "hotmeal/src/dom.rs: apply_patch"]}
{"id": "C32", "title": "Doctype detection", "statement": "A document is treated as having a doctype iff after ASCII white space it starts with `<!doctype` in any letter case; only then is a doctype kept.", "quantifier": "for every input text", "why_tests_cant": "All strings.", "anchors": ["hotmeal/src/dom.rs: has_doctype_prefix, parse"]}
{"id": "C33", "title": "Parser sink merges text and loses none", "statement": "Text delivered by the parser is appended to the adjacent preceding text node or becomes a new text node; appending text never creates two adjacent text nodes at the end, and the concatenated text of the parent grows by exactly the delivered text.", "quantifier": "for every sequence of sink calls", "why_tests_cant": "Unbounded call histories chosen by the parser.", "anchors": ["hotmeal/src/dom.rs: ArenaSink::append, append_before_sibling, append_based_on_parent_node, reparent_children"]}
{"id": "C34", "title": "Late attributes never overwrite", "statement": "add_attrs_if_missing keeps every existing attribute and its value and adds exactly the names that were missing, in order, without creating duplicates.", "quantifier": "for every element and attribute list", "why_tests_cant": "All lists.", "anchors": ["hotmeal/src/dom.rs: ArenaSink::add_attrs_if_missing"]}
{"id": "C35", "title": "Patch conversion for the wire keeps meaning", "statement": "into_owned leaves every patch equal to the original, and converting an attribute name to its wire form and back gives the same name (an empty prefix becomes no prefix).", "quantifier": "for every patch and every qualified name", "why_tests_cant": "All recursive patch contents.", "anchors": ["hotmeal/src/diff.rs: into_owned impls, QualNameProxy", "hotmeal/src/stem.rs: Stem::into_owned, PartialEq"]}
{"id": "C36", "title": "Opaque content is left alone", "statement": "No generated Insert, Move, Remove, SetText or UpdateProps addresses a node strictly inside an opaque element of the old document, and none is about a node strictly inside an opaque element of the new document.", "quantifier": "for every pair of documents with any number and nesting of opaque elements", "why_tests_cant": "Universal over nestings and matchings.", "anchors": ["cinereus/src/chawathe.rs: opaque_descendants_a/b", "cinereus/src/matching.rs: bottom_up_phase, match_subtrees", "hotmeal/src/diff.rs: is_opaque"]}
{"id": "C37", "title": "Opaque changes are reported with the right target", "statement": "For each matched element that is opaque in the new document and whose content differs there is exactly one OpaqueChanged patch, carrying the new inner HTML, and its path leads to that element when it is applied.", "quantifier": "for every pair of documents", "why_tests_cant": "The path must be right after all other patches were applied, for every combination.", "anchors": ["hotmeal/src/diff.rs: diff (opaque_patches)", "hotmeal/src/dom.rs: apply_patch (OpaqueChanged)"]}
{"id": "C38", "title": "Attribute-only changes give attribute-only patches", "statement": "If two bodies differ only in attributes of elements, every generated patch is an UpdateProps.", "quantifier": "for every pair of documents equal up to attributes", "why_tests_cant": "All trees and all attribute changes.", "anchors": ["cinereus/src/matching.rs: top_down_phase (hash ignores attributes)", "hotmeal/src/diff.rs: recompute_hashes, diff"]}
{"id": "C39", "title": "Diffing always terminates", "statement": "The candidate loop of the top-down matching and every tree walk finish for every pair of documents.", "quantifier": "for every two finite trees", "why_tests_cant": "Termination over all inputs.", "anchors": ["cinereus/src/matching.rs: top_down_phase", "cinereus/src/tree.rs: PostOrderIter", "hotmeal/src/diff.rs: compute_path, is_ancestor"]}
{"id": "C40", "title": "Traversals visit each node once", "statement": "Pre-order and post-order traversals list every node of the tree exactly once, parents before (resp. after) their children, and siblings in order. The height of a node, which decides what is matched first, is the length of the longest way down from it.", "quantifier": "for every tree", "why_tests_cant": "All trees; the iterative post-order uses an explicit stack.", "anchors": ["cinereus/src/tree.rs: iter, post_order, PostOrderIter, height", "hotmeal/src/diff.rs: PostOrderIterator"]}
{"id": "C41", "title": "Namespaces survive the round trip", "statement": "After applying `diff(old, new)`, every element has the namespace it has in the new document.", "quantifier": "for every pair of documents, including SVG and MathML content", "why_tests_cant": "All trees with foreign content.", "anchors": ["hotmeal/src/dom.rs: apply_patch (InsertElement), create_insert_content"]}
{"id": "C42", "title": "Reconnect back-off stays in bounds", "statement": "The reconnect delay is always between 100 ms and 5000 ms, never decreases while sessions keep failing, and returns to its minimum after a successful session.", "quantifier": "for every sequence of session outcomes", "why_tests_cant": "Unbounded histories.", "anchors": ["hotmeal-wasm/src/lib.rs: live_reload_loop"]}
{"id": "C43", "title": "The parsed document's root and body", "statement": "The root of a document returned by `parse` is its `html` element, so `body()` finds the body element the parser built, and `to_html` writes the page.", "quantifier": "for every sequence of tree-builder calls that keeps the parser's contract", "why_tests_cant": "What stands before the html element (comments) varies without bound.", "anchors": ["hotmeal/src/dom.rs: finish, body, to_html"]}
{"id": "C44", "title": "Parsed documents are sound", "statement": "Every document the parser builds has consistent tree links without cycles, only elements and the document node have children, no element has two attributes of the same name, and its root is a node of it.", "quantifier": "for every sequence of tree-builder calls that keeps the parser's contract, including reparenting and foster parenting", "why_tests_cant": "Unbounded call sequences; every diff theorem relies on this.", "anchors": ["hotmeal/src/dom.rs: TreeSink impl (append, append_before_sibling, add_attrs_if_missing, reparent_children, remove_from_parent, finish)"]}
{"id": "C45", "title": "Patches survive the wire", "statement": "Patches that are made owned, serialized with names as proxies, and decoded have the same effect as the patches that `diff` returned.", "quantifier": "for every pair of documents and every patch list", "why_tests_cant": "All names with and without prefixes and namespaces.", "anchors": ["hotmeal/src/diff.rs: QualNameProxy, Patch::into_owned", "hotmeal/src/stem.rs: Stem", "hotmeal-wasm/src/lib.rs: handle_live_reload_event"]}
{"id": "C46", "title": "What a patch list does to a document", "statement": "`apply_patches` does to the body exactly the tree rewriting its patches describe: inserted content appears at its place with gaps filled by empty texts, a displaced or removed node leaves its place as described and can be taken from its slot later, texts and attributes get their new values, and nothing outside the body changes.", "quantifier": "for every document and every list of patches (also ones `diff` did not make) for which the rewriting is defined", "why_tests_cant": "All patch lists over all trees, including displaced subtrees and slots.", "anchors": ["hotmeal/src/dom.rs: apply_patches, apply_patch, insert_at, navigate_slot_path", "hotmeal/src/diff.rs: Patch, NodeRef, InsertContent"]}
{"id": "C47", "title": "What a patch list does to the page", "statement": "The browser client's `apply_patches` does to the patched element exactly the tree rewriting its patches describe, under the browser's rules for attributes, text content and occupied positions, and nothing outside that element changes.", "quantifier": "for every page tree with lower-case names and every list of patches whose names the browser accepts and keeps, for which the rewriting is defined", "why_tests_cant": "All patch lists over all trees.", "anchors": ["hotmeal-wasm/src/lib.rs: apply_patches, apply_patch, find_node, insert_at_position, create_insert_content"]}
{"id": "C48", "title": "Diff always returns a patch list", "statement": "`diff` of any two documents returns a patch list: none of its internal error returns, failed lookups, failed tree operations or panics is reachable, also when hashes collide, nodes change places with their ancestors, or elements become or stop being opaque.", "quantifier": "for every pair of documents and every hash function", "why_tests_cant": "The absence of reachable errors in a stateful conversion over all matchings and all tree shapes is not a finite set of cases.", "anchors": ["hotmeal/src/diff.rs: diff, convert_ops_with_shadow, ShadowTree, replace_with_placeholder", "hotmeal/src/diff.rs: create_insert_patch, build_tree_from_arena"]}
{"id": "C49", "title": "Clients catch up after losing the connection", "statement": "A browser client that loses its connection and reconnects shows, once it is connected and a further update has been delivered, the HTML the server has cached for its route, whatever updates it missed in between.", "quantifier": "for every sequence of server calls and every choice of which of them the client is connected for", "why_tests_cant": "Any interleaving of disconnections and updates over any pages.", "anchors": ["hotmeal-wasm/src/lib.rs: live_reload_loop, live_reload_session", "hotmeal-server/src/lib.rs: LiveReloadServer"]}
{"id": "C50", "title": "Content with names the DOM rejects is inserted as it stands", "statement": "When the DOM refuses to create an element or set an attribute of inserted content because of its name, the browser client still inserts an element with the same tag, attributes and children, by writing HTML for it and letting the browser parse that.", "quantifier": "for every piece of content to insert and every set of names that the DOM rejects", "why_tests_cant": "All trees with all strings as names, values and texts: one wrong escape shows only for particular content.", "anchors": ["hotmeal-wasm/src/lib.rs: create_element_via_html, serialize_insert_content, create_insert_content"]}
{"id": "C51", "title": "Editing texts gives text updates", "statement": "If the new page has the same structure as the old one and only texts (and attribute values) are edited, the diff consists of text and attribute updates: one text update for each text that differs, at the path of that text in the old page, and nothing is created, removed or moved, so the nodes of the page keep their identity (focus, selection, listeners).", "quantifier": "for all pairs of documents of the same structure, all texts and attributes", "why_tests_cant": "Whether a node is recognised depends on the number and order of all other nodes, on equal texts elsewhere and on a similarity threshold; tests see a few pages.", "anchors": ["cinereus/src/matching.rs: compute_matching, top_down_phase, bottom_up_phase, dice_coefficient", "hotmeal/src/diff.rs: diff, build_tree_from_arena, HtmlProps::similarity"]}
{"id": "C52", "title": "Unchanged content that occurs once keeps its nodes", "statement": "If a piece of content occurs exactly once in the old page and exactly once in the new one, then after the patches are applied the very node that held it in the old page stands at its place in the new page, in the library's document as in the browser's DOM: it is not removed and created again, so its state there (focus, playback, listeners) survives.", "quantifier": "for all pairs of pages and all pieces of content that occur once in each, however far they move", "why_tests_cant": "Which nodes are recognised depends on everything else in both pages; a test sees a few pages and usually compares only the resulting HTML, which is the same when a node is recreated.", "anchors": ["cinereus/src/matching.rs: compute_matching, top_down_phase, match_subtrees", "hotmeal/src/diff.rs: diff, build_tree_from_arena", "hotmeal-wasm/src/lib.rs: apply_patches"]}
{"id": "C53", "title": "No patch list can break the document", "statement": "Whatever patch list is applied, be it generated, hand-written or damaged, and whether or not it fails half-way: afterwards parent and child links of the document agree, every node below the root is at exactly one place, and nothing outside the body has changed, except that the body itself may have been taken away. The same holds for the page and the element that the browser client patches.", "quantifier": "for all documents and all lists of patches", "why_tests_cant": "All lists of patches with all paths and slots, including those that move a node below itself; a broken link shows only when later code happens to follow it.", "anchors": ["hotmeal/src/dom.rs: Document::apply_patches, apply_patch, insert_at, insert_at_position, clone_subtree_from", "hotmeal-wasm/src/lib.rs: apply_patches, apply_patch, insert_at_position"]}
{"id": "C54", "title": "Patches carry only content of the new page", "statement": "Everything the patches of a diff write comes from the new page: inserted elements are copies of elements of the new page of which descendants may be left out, inserted and updated texts and comments are those of nodes of the new page, attribute updates list the attributes of one element of the new page with its values, and HTML strings are the inner HTML of elements of the new page. Nothing of the old page, and nothing made up, is sent to the clients.", "quantifier": "for all pairs of documents and all hash functions", "why_tests_cant": "A stale or mixed-up piece of content shows only for particular combinations of matched, inserted and opaque nodes; the claim is about every string of every patch of every pair.", "anchors": ["hotmeal/src/diff.rs: diff, convert_ops_with_shadow, extract_content_from_tree_b, create_insert_patch, create_insert_content", "cinereus/src/chawathe.rs: generate_edit_script"]}
{"id": "C55", "title": "A diff sends little", "statement": "No piece of the new page is sent twice: the nodes created by the patches of a diff are copies of pairwise different nodes of the new page, so that the content sent is never larger than the new page. Every node of the old page is removed at most once, gets at most one new text, one new attribute list and one new inner HTML, and is moved at most once, unless a node has to be moved below itself. The number of patches is therefore linear in the sizes of the two pages, and never more than quadratic.", "quantifier": "for all pairs of documents and all hash functions", "why_tests_cant": "A duplicated subtree inside another insertion, or a quadratic number of patches, shows only for particular nestings of inserted, matched and opaque nodes and for large pages.", "anchors": ["hotmeal/src/diff.rs: diff, convert_ops_with_shadow, extract_content_from_tree_b, create_insert_patch", "cinereus/src/chawathe.rs: generate_edit_script"]}
{"id": "C56", "title": "Rounding does not decide which nodes match", "statement": "The library scores candidate pairs with double precision numbers. For pages with up to 33 million nodes together, no comparison of two scores and no comparison of a score with the threshold has another outcome than with exact numbers, so that diff returns the patches that exact arithmetic would give.", "quantifier": "for all pairs of documents up to that size and all hash functions", "why_tests_cant": "Rounding errors change a comparison only for particular pairs of sizes; tests with pages of a few hundred nodes do not meet them, and no test can try all pairs of fractions.", "anchors": ["cinereus/src/matching.rs: dice_coefficient, bottom_up_phase, MatchingConfig", "hotmeal/src/diff.rs: HtmlProps::similarity, diff"]}
{"id": "C57", "title": "Zero-copy parsing keeps every text", "statement": "Texts, attribute values and comments of a parsed document are taken from the memory of the input where they lie inside it and copied otherwise. Neither panics, both give the text that the parser found, and nothing is copied that lies inside the input. The text stays the same as long as the input is alive; after conversion to an owned value or after appending to it, it does not depend on the memory of the input at all.", "quantifier": "for all memory contents, all inputs and all pieces of text at any address", "why_tests_cant": "Whether a piece lies inside the input, partly inside or outside depends on the allocator and on the internals of the parser; slicing at a position inside a multi-byte character panics only for particular addresses.", "anchors": ["hotmeal/src/dom.rs: parse, tendril_to_stem_with_input", "hotmeal/src/stem.rs: Stem, push_str, into_owned"]}
{"id": "C58", "title": "An unchanged block is not touched", "statement": "When a block of the page (a child of the body with everything in it) is equal and at the same place in the old and in the new document, no patch of the diff has a path that leads to the block or into it. While the patches are applied, to the library document or to the page in the browser, the block keeps its nodes, its place, its children and its content after each patch. So playing media, selection, scroll position and form input in it survive.", "quantifier": "for all pairs of documents, all blocks at all positions, all prefixes of the patch list", "why_tests_cant": "Whether a matched block is also left alone depends on the order in which all candidate pairs of the whole page are worked off; a change anywhere on the page can tear a node out of the block.", "anchors": ["hotmeal/src/diff.rs: diff, convert_ops_with_shadow", "cinereus/src/matching.rs: compute_matching, top_down_phase", "hotmeal/src/dom.rs: apply_patches", "hotmeal-wasm/src/lib.rs: apply_patches"]}
{"id": "C59", "title": "The patches depend on the two bodies only", "statement": "Two runs of the diff give the same patch list, patch by patch, whenever the contents of their old bodies are equal and their new bodies are equal. Node numbers, removed nodes, the history of the documents, head and doctype, the attributes of the old body element and the choice of the hash function (also a randomly seeded one) have no influence, as long as the hash has no collision. So a patch list may be computed on one machine from a parsed page and compared with, cached for or replayed on another.", "quantifier": "for all two pairs of documents and all two hash functions, possibly with different hash types", "why_tests_cant": "It compares all documents with a given body, including every way to number their nodes, and all hash functions.", "anchors": ["hotmeal/src/diff.rs: diff", "hotmeal/src/diff.rs: convert_ops_with_shadow", "cinereus/src/matching.rs: compute_matching", "cinereus/src/chawathe.rs: generate_edit_script"]}
{"id": "C60", "title": "Any patch list means the same to the library and to the page", "statement": "A list of patches that can be carried out, whoever made it, has the same effect in the library and in the browser client: starting from a document and a page that show the same body, both succeed and show the same body afterwards.", "quantifier": "for all documents and pages with the same body, all patch lists of any origin", "why_tests_cant": "The two appliers are separate programs on different data structures; agreement must hold for every sequence of all ten kinds of patches with all paths and slots.", "anchors": ["hotmeal/src/dom.rs: apply_patches, apply_patch", "hotmeal-wasm/src/lib.rs: apply_patches, apply_patch"]}
{"id": "C61", "title": "A page does not fill up with leftovers", "statement": "However often a page is updated, no element of it ever has more children than the largest number of children that an element of the initial page or of one of the rendered versions has: the placeholders that patches leave where they take nodes away do not pile up.", "quantifier": "for all initial pages, all sequences of versions of any length", "why_tests_cant": "Growth shows only after many updates, and the bound must hold for every sequence of edits, each of which may leave placeholders at any place.", "anchors": ["hotmeal/src/diff.rs: diff, apply_patches", "hotmeal-wasm/src/lib.rs: insert_at_position, apply_patch"]}
{"id": "C62", "title": "The patches turn any copy of the old body into the new one", "statement": "The patch list computed from two versions of a page applies to every document and every page that shows the body of the old version, not only to the document it was computed from: each of them ends up showing the body of the new version, with everything outside the body unchanged. In particular it does not matter how the copy came about: parsed anew, patched into that state, or built by the browser.", "quantifier": "for all pairs of documents, all documents and pages whose body looks like that of the old one", "why_tests_cant": "Tests apply the patches to the document they were computed from. That nothing in the patches depends on its node ids, on the nodes outside the body or on detached nodes is a statement about all copies.", "anchors": ["hotmeal/src/diff.rs: diff, diff_html, apply_patches", "hotmeal-wasm/src/lib.rs: apply_patches_json, apply_patches_with_slots"]}
{"id": "C63", "title": "The edit script describes the new tree", "statement": "Read as a description of where every node ends up and what it is like, the edit script between two trees, together with the matched pairs, says exactly what the new tree is: every node of the new tree is either a kept old node or an inserted one, in exactly one place, below the right parent and at the right index, with the right kind, and kept nodes get the right text and attributes; nothing else remains. Two new trees with the same script and pairs are the same up to the content of inserted nodes.", "quantifier": "for all pairs of trees with matched roots, all one-to-one matchings of nodes of the same kind, all configurations of the matcher", "why_tests_cant": "Tests look at the scripts of a few small trees. That no node is left undescribed or described twice depends on the interplay of matching, insertions, moves, deletions and unmoved nodes in every pair of trees.", "anchors": ["cinereus/src/lib.rs: diff_trees, diff_trees_with_matching", "cinereus/src/chawathe.rs: generate_edit_script", "hotmeal/src/diff.rs: diff"]}
{"id": "C64", "title": "Updates through a mount point stay in the mount point and find it again", "statement": "When a part of a page is kept up to date through a CSS selector, every update changes only the content of the element that the selector names: nothing outside it changes and the element keeps its place, its tag and its own attributes. The selector finds the same element for every update, each update succeeds, and after any sequence of versions the element has the content of the last one.", "quantifier": "for all pages, all mount points, all selectors that do not look into the mount point, all sequences of versions", "why_tests_cant": "The tests patch the body. Whether patches can reach a node outside of an arbitrary element, and whether the element is still the first match of its selector after any number of updates, is a statement about all pages, patch lists and histories.", "anchors": ["hotmeal-wasm/src/lib.rs: apply_patches_on, apply_patches_with_slots_on, apply_patches_postcard_on, resolve_mount_point", "hotmeal-server/src/lib.rs: loader_script"]}
{"id": "C65", "title": "The script tag starts the client with the given arguments", "statement": "The tag that the server library writes for live reload is exactly one script element. Its text, read as JavaScript, imports the glue code from the given URL, loads the given binary, and starts the client with the given server URL and the given mount selector.", "quantifier": "for all URLs and all selectors", "why_tests_cant": "The test looks for the arguments as substrings of the tag. Whether a browser reads the same values back, and nothing else, depends on every character of the arguments.", "anchors": ["hotmeal-server/src/lib.rs: loader_script"]}
{"id": "C66", "title": "The numbers in patches fit in 32 bits", "statement": "The child indices and slot numbers in the patches are computed with machine words and cast to 32 bits without a check. If the two documents have at most 2^30 nodes together, no cast changes a number; if no node has to be moved below itself, 2^32 nodes are enough. If the pages can be compared as in C01 and hashes do not collide, only the nodes of the two bodies count, and hence pages whose texts have at most 2^30 characters together are safe, whatever the parser leaves behind outside of the bodies.", "quantifier": "for all pairs of documents of that size", "why_tests_cant": "A page on which a cast goes wrong is too large for a test, and how large the numbers get (slots are never reused, gaps are filled up to a position) depends on the whole run of the conversion.", "anchors": ["hotmeal/src/diff.rs: NodePath, ShadowTree::compute_path, ShadowTree::get_node_ref_with_position, ShadowTree::create_slot, diff"]}
{"id": "C67", "title": "What the HTML parser reads", "statement": "An input that starts with a doctype (after white space, in any letter case) is parsed as it stands. Of the other inputs, one with the start of an html or body tag anywhere, in any letter case, is parsed with a doctype in front, and every other one is parsed as the content of a body. Nothing is wrapped twice, and no two inputs of the same form are confused.", "quantifier": "for all input texts", "why_tests_cant": "The decision depends on the letter case of every letter of the keywords and on every position in the text where one could start.", "anchors": ["hotmeal/src/dom.rs: parse, has_doctype_prefix, has_html_structure"]}
{"id": "C68", "title": "Adding or removing content at the end touches nothing else", "statement": "When the new page is the old page with content added at the end of the body, the patches insert the nodes of that content, each at its final place, and do nothing else; when content at the end is taken away, they remove its nodes and do nothing else (but attributes of the body are always sent again). Applying them gives the new page.", "quantifier": "for all pairs of pages of which one continues the other", "why_tests_cant": "The matching compares every node with every other; whether the kept part is really left alone depends on all contents of both pages, and the places in the patches on the whole run of the conversion.", "anchors": ["hotmeal/src/diff.rs: diff, convert_ops_with_shadow", "cinereus/src/matching.rs: compute_matching", "cinereus/src/chawathe.rs: generate_edit_script"]}
{"id": "C69", "title": "The same two documents always give the same patches", "statement": "The patches returned by diff are a function of the two documents and the hash function alone. They do not depend on the order in which hash sets are iterated, on what has been cached when, or on how the matching is stored: the tables and caches always hold what would be computed afresh.", "quantifier": "for all pairs of sound documents and all iteration orders of hash sets", "why_tests_cant": "A stale cache entry or an influence of the iteration order shows only for some documents and some orders; a test fixes both.", "anchors": ["hotmeal/src/diff.rs: DiffableDocument, recompute_hashes, position, diff", "cinereus/src/matching.rs: Matching, LazyDescendantMap, bottom_up_phase", "cinereus/src/chawathe.rs: generate_edit_script"]}
{"id": "C70", "title": "No patches means no change", "statement": "When diff returns no patches, the two bodies have the same HTML: no change is lost. What is hashed for a node determines its kind, its text and the hashes of its children, so that only a collision of the hash function or of the hash of names can hide a change.", "quantifier": "for all pairs of documents and all hash functions", "why_tests_cant": "A test cannot search all pairs of documents for one whose difference the hash hides; that the encoding is unambiguous is a statement about all nodes.", "anchors": ["hotmeal/src/diff.rs: diff, DiffableDocument::new, recompute_hashes, HtmlNodeKind", "hotmeal/src/stem.rs: Hash for Stem", "cinereus/src/matching.rs: top_down_phase, match_subtrees"]}
{"id": "C71", "title": "The tree differ on its own accounts for the root", "statement": "For a user of the crate cinereus alone, the edit script of diff_trees transforms the first tree into the second: in particular, exactly one node comes out as the root, and it stands for the root of the second tree.", "quantifier": "for all pairs of trees and all configurations of the matcher", "why_tests_cant": "Whether the roots are matched depends on the configuration, the kinds and attributes of all nodes and which of them have children; the tests use trees whose roots match.", "anchors": ["cinereus/src/lib.rs: diff_trees, diff_trees_with_matching", "cinereus/src/matching.rs: compute_matching, MatchingConfig", "cinereus/src/chawathe.rs: generate_edit_script"]}
{"id": "C72", "title": "Further visitors do not disturb the browsers already connected", "statement": "When several browsers have a route open, each served by a page that was cached when it was served and each sent every event, all of them show the HTML last given to the server for the route, whoever visits when.", "quantifier": "for all sequences of visits and calls of the server and all versions of the page", "why_tests_cant": "The tests of the server have no clients, and the tests of the client have one page; what matters is how visits and changes interleave.", "anchors": ["hotmeal-server/src/lib.rs: LiveReloadServer::cache_html, diff_route, diff_route_with_head", "hotmeal-wasm/src/lib.rs: apply_patches"]}
{"id": "C73", "title": "An error in the browser does limited harm", "statement": "When the client cannot apply one of the patches it is sent, it reports the error and goes on with later events; the page is what the patches before that one have made of it, it stays a well-formed tree with nothing changed outside the mount point, and the next full reload shows the HTML cached by the server.", "quantifier": "for all pages, lists of patches, browsers (which names they accept) and sequences of calls of the server", "why_tests_cant": "The tests apply patches that fit the page; there are unboundedly many ways in which a list of patches can fail half way.", "anchors": ["hotmeal-wasm/src/lib.rs: apply_patches, apply_patches_with_slots_on_root, apply_patch_with_slots, on_event, handle_live_reload_event", "hotmeal-server/src/lib.rs: LiveReloadServer::diff_route"]}
{"id": "C74", "title": "What scripts have changed in the browser survives an update", "statement": "A script in the page has changed blocks of the page in any way, and the server, which does not know, sends the patches from one version to the next. If these blocks are the same in both versions, the patches still apply, the rest of the page shows the new version, and the DOM nodes of the changed blocks stay as the script has left them.", "quantifier": "for all pairs of versions, all sets of unchanged blocks and all contents that a script may have put in place of them", "why_tests_cant": "The tests patch pages that show the old version exactly; a script can put anything into the page.", "anchors": ["hotmeal/src/diff.rs: diff", "hotmeal-wasm/src/lib.rs: apply_patches, apply_patch_with_slots, insert_at_position"]}
{"id": "C75", "title": "Pages with template elements", "statement": "A page in the browser shows the new version after the patches, also when it has <template> elements: each template is there with its content.", "quantifier": "for all pairs of versions with templates at any place, and all pages that show the old version", "why_tests_cant": "The fuzz targets leave out pages with templates; what a browser does with them differs from what the library's parser does, and templates may be nested and anywhere.", "anchors": ["hotmeal/src/dom.rs: ArenaSink::get_template_contents", "hotmeal/src/diff.rs: diff", "hotmeal-wasm/src/lib.rs: apply_patches, find_node"]}
{"id": "C76", "title": "Machine limits do not change the patches", "statement": "The patches that the program computes, with floating-point scores, 32-bit positions, paths and slot numbers, 64-bit hashes, lookup tables, caches and hash sets iterated in whatever order, are the patches that exact scores, unbounded numbers and direct computation would give, for documents with up to 33 million nodes together.", "quantifier": "for all pairs of sound documents with up to 2^25 nodes together, all hash functions, all iteration orders of hash sets", "why_tests_cant": "Rounding, wrap-around, stale caches and iteration order show only for particular sizes, shapes and runs; a test sees one machine and a few sizes. Together they could also interact.", "anchors": ["hotmeal/src/diff.rs: diff, DiffableDocument, HtmlProps::similarity, ShadowTree::compute_path, ShadowTree::create_slot", "cinereus/src/matching.rs: compute_matching, dice_coefficient, LazyDescendantMap, Matching", "cinereus/src/chawathe.rs: generate_edit_script"]}
{"id": "C77", "title": "A document kept up to date by diff and apply stays up to date", "statement": "A program holds a document and, for every new version of the page, computes the patches from the document it holds to the new version and applies them to the document it holds. Whatever the number of versions, no step fails, after every step the document has the body HTML of the version, and what earlier steps leave behind (empty texts, nodes taken out of the tree, elements created without their namespace) never disturbs a later step.", "quantifier": "for all initial documents, all sequences of versions of any length, all prefixes of the sequence", "why_tests_cant": "The document that is compared is not a parsed one but one that went through any number of earlier updates and carries their leftovers; a test sees a few such histories.", "anchors": ["hotmeal/src/diff.rs: diff, apply_patches", "hotmeal/src/dom.rs: Document::apply_patches, Document::apply_patch, insert_at"]}
{"id": "C78", "title": "What scripts draw into opaque elements survives updates", "statement": "A page shows a document, and scripts have filled its opaque elements (those with the attribute data-hotmeal-opaque) with whatever they like. When the patches to a new version of the document are applied to the page, none of them fails, and after each of them the content of every opaque element is as the scripts left it: the same DOM nodes with the same children, attributes and texts. At the end, an opaque element that both versions have is the same DOM node and stands where the new version has it. This stays so for any number of updates.", "quantifier": "for all pairs of documents, all pages with any content inside opaque elements, all prefixes of the patch list, all sequences of versions of any length", "why_tests_cant": "The content of opaque elements is unknown to the library: the patches are computed from documents that do not have it. A test can try a few contents; here no patch list may reach into any of them, with any number of moves around it.", "anchors": ["hotmeal/src/diff.rs: diff, HtmlProps, opaque", "cinereus/src/matching.rs: top_down_phase", "cinereus/src/chawathe.rs: generate_edit_script", "hotmeal-wasm/src/lib.rs: apply_patches"]}
{"id": "C79", "title": "A live-reload client with scripts stays up to date", "statement": "A client of the live-reload server has a page open, and scripts on it fill the opaque elements, change what is in them and empty them at any time. Whatever is called on the server meanwhile, after every event the client shows the HTML that is cached for its route, apart from the content of opaque elements. This is so even if the browser has rejected a report about an opaque element and the client has logged an error. An update does not touch the content of opaque elements, and as long as the page is not reloaded, a widget that both versions have stays the same DOM node.", "quantifier": "for all pages, all sequences of server calls interleaved with any actions of scripts inside opaque elements, of any length", "why_tests_cant": "The number of interleavings of calls and scripts is unbounded, and the patches are computed from HTML that does not have what the scripts have made. An error in the middle of a patch list would go unnoticed, as the client only logs it.", "anchors": ["hotmeal-wasm/src/lib.rs: apply_patches, handle_live_reload_event, on_event", "hotmeal-server/src/lib.rs: LiveReloadServer", "hotmeal/src/diff.rs: diff, opaque"]}
{"id": "C80", "title": "Fragments can be diffed", "statement": "Two pieces of HTML are read with parse_body_fragment, as the fuzzers do. The diff from the first document to the second succeeds, and applying it to the first gives the content of the second.", "quantifier": "for all pairs of runs of the fragment parser, of any length, with any tree-builder calls that keep its contract", "why_tests_cant": "The content of a fragment is unbounded, and comparing body HTML, as tests do, hides the failure: both documents write the empty string.", "anchors": ["hotmeal/src/dom.rs: parse_body_fragment, Document::body, ArenaSink", "hotmeal/src/diff.rs: diff"]}
{"id": "C81", "title": "Events and patches arrive as they were sent", "statement": "The server writes an event, with the patches in it, as bytes, and the browser reads the bytes. A client that gets the bytes does exactly what the event says: it applies the same patches with the same texts, names, paths and slots, or reloads. Different events have different bytes. If only the first part of a message arrives, it is rejected and the page stays as it is. So a client that gets its events as bytes shows, after any calls on the server, what it would show if it got the events themselves.", "quantifier": "for all events and lists of patches of any length with any texts and any nesting of inserted content, with fewer than 2^32 bytes and numbers of 32 bits, for all points at which a message is cut, and for all sequences of calls and connections", "why_tests_cant": "Tests send a few short messages. Lengths and numbers change their size at 128, 16384, 2^21 and 2^28, texts may have any characters, and content may be nested to any depth.", "anchors": ["hotmeal-server/src/lib.rs: LiveReloadEvent::to_postcard, from_postcard, diff_route", "hotmeal-wasm/src/lib.rs: apply_patches_postcard, apply_patches_postcard_on, handle_live_reload_event", "hotmeal/src/diff.rs: Patch, InsertContent, PropChange, PropKey, NodePath, NodeRef, QualNameProxy"]}
{"id": "C82", "title": "Patches arrive as they were sent as JSON", "statement": "In the browser, diff_html returns patches as JSON text, and apply_patches_json takes such a text. The patches that are applied are exactly those that were computed: same kinds, same order, same texts (with quotes, backslashes, control characters and characters outside of ASCII), same names, paths and slots. Different patch lists have different texts. If only the first part of a text arrives, it is rejected and nothing is applied.", "quantifier": "for all lists of patches of any length with any texts and any nesting of inserted content and with numbers of 32 bits, for all pairs of documents with at most 2^30 nodes and no empty prefixes, and for all points at which a text is cut", "why_tests_cant": "The tests try a handful of texts, and one of them exists because an escape after a character of several bytes was once read wrongly. Every character, every combination of characters and every depth of content has to survive.", "anchors": ["hotmeal-wasm/src/lib.rs: diff_html, apply_patches_json", "hotmeal/src/diff.rs: Patch, InsertContent, PropChange, PropKey, NodePath, NodeRef, QualNameProxy, test_facet_json_unicode_escape_bug"]}
{"id": "C83", "title": "What is written can be read back", "statement": "Parsing the HTML that to_html writes for a page gives the same page: the same elements with the same names and attributes, the same texts and comments in the same places, and the same doctype. The same holds for the HTML that to_body_html writes, handed to parse or to parse_body_fragment, and for the HTML that the browser client writes for content with names that the DOM refuses. A page needs no patches to become what is read from its own HTML.", "quantifier": "for all pages of any size and nesting with any names, attribute values, texts, comments, scripts and styles, and for every parser that follows the HTML standard", "why_tests_cant": "The tests write and read a few pages. Whether quotes, ampersands, tags inside of scripts and comments survive depends on every combination of characters with the place where they are, and on which elements may be inside of which.", "anchors": ["hotmeal/src/dom.rs: parse, parse_body_fragment, to_html, to_body_html, serialize_node, serialize_node_raw, ArenaSink", "hotmeal-wasm/src/lib.rs: serialize_insert_content"]}
{"id": "C84", "title": "From the texts of two pages to the page that is shown", "statement": "A server gets the text of the old and of the new version of a page and sends the difference to a browser that has loaded the text of the old version. When the browser has applied what it gets, its page has the content that it would have if it had loaded the text of the new version. The same holds along a session in which the server is given one text after the other for a route and the browser gets every event as bytes. When scripts in the browser draw into opaque elements in between, it holds apart from the content of these elements.", "quantifier": "for all texts of pages that the HTML standard reads without repairs, all sequences of such texts and of other calls on the server, and every parser on the server and in the browser that follows the HTML standard", "why_tests_cant": "The tests compare documents that both ends have in the same form. Here the server's parser, the difference, the encoding, the client and the browser's parser have to fit together for every pair of texts, and an error in one of them can cancel out in a test that uses the same code on both sides.", "anchors": ["hotmeal/src/dom.rs: parse, to_body_html", "hotmeal/src/diff.rs: diff", "hotmeal-server/src/lib.rs: LiveReloadServer::diff_route", "hotmeal-wasm/src/lib.rs: diff_html, apply_patches_json, handle_live_reload_event, apply_patches"]}
{"id": "C85", "title": "Content set, patched and asked for as texts", "statement": "A page in a browser is given a text with set_body_inner_html, and then the JSON that diff_html returns for that text and a new one is given to apply_patches_json. No call fails, and get_body_inner_html returns the new text. The same holds for any number of new texts, one after the other. Setting the content replaces what was in the body, and neither it nor the updates touch the attributes of the body or anything outside of it.", "quantifier": "for all pages with a body, all contents that the HTML standard reads without repairs, all sequences of such contents, and every parser behind diff_html and in the browser that follows the HTML standard", "why_tests_cant": "The project's browser tests do exactly this for a few dozen pairs of texts. They cannot say anything about the next pair, about a second update on a page that was patched before, or about nodes of the page that they do not look at.", "anchors": ["hotmeal-wasm/src/lib.rs: set_body_inner_html, get_body_inner_html, diff_html, apply_patches_json", "hotmeal-wasm/index.html: runTestCase", "hotmeal-wasm/tests/wasm.spec.ts: roundtrip"]}
{"id": "C86", "title": "Patch lists can be applied in pieces, and merged", "statement": "Applying patches one at a time with the slots that the caller keeps (apply_patch_with_slots, and in the browser apply_patches_with_slots) gives the document, or the page, and the error of applying the whole list in one call. If several lists that spare the body are applied in separate calls without an error, then the concatenation of the lists applied in one call gives the same result, although all the lists number their slots from one: updates that have piled up can be sent as one list. The same holds for a mount point that is found by a selector, if the lists leave its attributes as they are. A list may be cut in two and applied in two separate calls at every place where no later patch refers to a slot that was filled before it.", "quantifier": "for all documents and pages, all patch lists, all places to cut, and any number of lists", "why_tests_cant": "The fuzz harnesses trace a patch list step by step and assume that the trace shows what one call does; whether that is so, and whether slots that are left over from one list can disturb the next one, depends on all lists and on the numbers of their slots.", "anchors": ["hotmeal/src/dom.rs: Document::apply_patches, Document::init_patch_slots, Document::apply_patch_with_slots", "hotmeal-wasm/src/lib.rs: Slots, apply_patches, apply_patches_with_slots, apply_patches_with_slots_on", "hotmeal/fuzz/fuzz_targets/common/patch_trace.rs", "hotmeal/fuzz/browser-wasm/src/lib.rs"]}
{"id": "C87", "title": "What is printed of a body tells which body it is", "statement": "dump_body returns a text for every document with a body. Two documents for which it returns the same text have bodies with the same elements in the same places, with the same attributes and values, and with the same texts and comments, whatever characters these contain. Only the case of the names of elements and the order and the prefixes of attributes are not shown; what is returned depends on nothing else.", "quantifier": "for all documents with a body whose names contain no characters that separate names, and every way of quoting strings that can be read back and stays on one line", "why_tests_cant": "The fuzz harnesses print bodies to compare them by eye. Whether a text or a value could look like the lines of other nodes, or two trees could be indented alike, is a question about all pairs of documents.", "anchors": ["hotmeal/src/dom.rs: Document::dump_body, Document::dump_subtree, Document::dump_node"]}
{"id": "C88", "title": "The page and the library's reading of its content are printed alike", "statement": "After set_body_inner_html was called with a text, dump_browser_dom returns what dump_rust_parsed returns for that text, so that a difference between the two means that the browser and the library have read different trees. The same holds after apply_patches_json was called with patches to a new text, for that text.", "quantifier": "for all pages with a body, all texts that the HTML standard reads without repairs, and every parser in the library and in the browser that follows the HTML standard", "why_tests_cant": "The two functions are written separately and are only looked at when a browser test fails. Whether they agree depends on every text, and on what patches leave behind.", "anchors": ["hotmeal-wasm/src/lib.rs: dump_browser_dom, dump_rust_parsed, set_body_inner_html, apply_patches_json", "hotmeal-wasm/index.html: runTestCase"]}
{"id": "C89", "title": "What is printed of patches", "statement": "When patches are logged or shown by a failing assertion, each one is printed on one line. Two patches are printed alike exactly if they are of the same kind, act on the same node or at the same position and use the same slot, and agree in the tag, in the name and the value of an attribute, in the first 20 characters of a text (40 for opaque content), and in how many attributes, children or changes they carry. Patches with short texts and without such lists can be told from the line. For the patches that diff makes this holds whatever names are in the documents, because diff makes no patches for single attributes. Patches that are printed alike have the same outcome on every page: both are applied, or both are refused with the same error.", "quantifier": "for all patches, all lists of patches that diff makes for any two documents", "why_tests_cant": "No test reads the lines. Whether two different patches for different nodes can look the same depends on numbers, names and texts that are put side by side without separators of their own.", "anchors": ["hotmeal/src/diff.rs: impl Debug for Patch, diff"]}
{"id": "C90", "title": "The library and the client refuse the same patches", "statement": "Given the same tree and the same slots, the library's apply_patches and the client in the browser apply the same patches and refuse the same patches, with the same error.", "quantifier": "for all trees, slots, patches and browsers (which names they accept)", "why_tests_cant": "The two are separate programs, and the tests give both of them only patches that diff has made, which neither refuses.", "anchors": ["hotmeal/src/dom.rs: apply_patch, navigate_slot_path, get_slot_parent", "hotmeal-wasm/src/lib.rs: apply_patch_with_slots, find_node, insert_at_position"]}
{"id": "C91", "title": "The parser finds its elements under the names it gave them", "statement": "Whatever the HTML parser does after it has created an element, the sink tells it the local name and the namespace with which it was created, for the namespaces of HTML, SVG and MathML. No later element has the same handle, and the document that comes out has the element with this tag, this namespace and the attributes it was created with, in order, followed by attributes with other names only.", "quantifier": "for all states of the sink, names, attributes and sequences of later calls of the parser", "why_tests_cant": "Where the parser puts content depends on these answers at any time later, after any sequence of moves, merges of texts and late attributes; tests run a few sequences.", "anchors": ["hotmeal/src/dom.rs: Namespace::from_url, Namespace::url, ArenaSink elem_name, same_node, create_element, add_attrs_if_missing, reparent_children"]}
{"id": "C92", "title": "Programs that follow the links of a document see each node once and in order", "statement": "From first_child along next_sibling a program sees the children of a node, each once and in order, and ends; from last_child along prev_sibling it sees them in the opposite order; child_count is their number. next_sibling and prev_sibling lead back and forth between nodes of the same parent. A program without stack that follows first_child, next_sibling and parent sees all nodes below its start, each once, and ends. This stays so after any edits by the library's calls; an inserted node is the neighbour of the node it was inserted at, and when a node is removed its neighbours become each other's.", "quantifier": "for all documents, nodes with a parent, and sequences of editing calls that put no node below itself", "why_tests_cant": "A wrong link shows only in documents with a certain history of edits, as an endless loop or as nodes that are left out.", "anchors": ["hotmeal/src/dom.rs: Document::parent, first_child, last_child, next_sibling, prev_sibling, child_count, append_child, insert_before, insert_after, remove"]}
{"id": "C93", "title": "What is shown of paths, properties and errors tells them apart", "statement": "Two paths with the same text are the same path, two errors with the same text are the same error with the same number, and two properties with the same text are the same property. Whenever apply_patches fails without a panic, for any document and any patches, its error has such a text, which is one line; a refused patch other than a Move never panics.", "quantifier": "for all paths, properties, errors, trees, slots and patches", "why_tests_cant": "Tests compare the texts of single values; that no two values share a text is a claim about all pairs.", "anchors": ["hotmeal/src/diff.rs: Display for NodePath, Display for PropKey, DiffError", "hotmeal/src/dom.rs: apply_patches"]}
{"id": "C94", "title": "A parsed document has what the parser delivers, once, and nothing else", "statement": "The texts of all text nodes together are made of exactly the characters that the parser has delivered, none lost and none twice. Each node other than the document node comes from calls of the parser: an element has the tag, namespace and attributes of a created element, followed only by late attributes; a comment is one that was created, or an empty one for a processing instruction; a text is a sequence of delivered texts. Each created element and each comment is there once.", "quantifier": "for all sequences of calls of the parser (for the texts: that keep the contract of the tree builder)", "why_tests_cant": "Text is merged with the text before it, which may have been moved or taken out by then; a loss shows only for certain orders of calls.", "anchors": ["hotmeal/src/dom.rs: ArenaSink append, append_before_sibling, append_based_on_parent_node, add_attrs_if_missing, reparent_children, create_element, create_comment, create_pi, finish"]}
