# Formal model of hotmeal in Lean 4

Source under study: `/repo` (bearcove/hotmeal, Rust), read as text, never built.
Properties: `properties.jsonl`. Claim status: `MANIFEST.json`. Mutation log: `seeded/LOG.jsonl`.

## Trusted base

* Lean 4.33.0 kernel. Every theorem depends at most on the axioms `propext`,
  `Classical.choice`, `Quot.sound` (checked with `#print axioms`). No axioms of our own, no
  `sorry`, no `native_decide`, no `bv_decide`. Counterexamples and examples are evaluated by the
  kernel (`decide +kernel`).
* The translation from Rust to Lean, which is by hand. Every definition under `Verif/Model`
  cites file and lines. `Verif/Conformance` runs the model on the inputs of the project's own tests (the 34
  round-trip cases, the browser tests, and the unit tests of cinereus, `diff.rs`, `dom.rs` and the server that do
  not depend on html5ever) and gets the recorded results. These are tests of the translation, not claims.
* The behaviour of the crate `indextree` 4.7.4, whose source is not available in the sandbox
  (modelled in `Verif/Model/Arena.lean` from its documentation).
* The behaviour of the DOM calls used by the browser client (modelled in `Verif/Model/Wasm.lean` and
  `Verif/Model/WebDom.lean` after the DOM standard; which names it accepts and how it parses HTML are parameters).
* That facet-postcard, whose source is not available in the sandbox, writes and reads the published postcard
  format (`Verif/Model/Postcard.lean`), with variants numbered in the order of declaration and names sent through
  their proxies. That a decoded patch is then the encoded one, up to the names, is proved (C81).
* That facet-json writes and reads JSON (RFC 8259) with the usual form of Rust values (`Verif/Model/Json.lean`): structs
  as objects, variants by name, `None` as `null`. That what is read is what was written is proved (C82).
* For C87, C88 and C89 only: that `{:?}` writes strings on one line and so that they can be read back, and that
  `to_uppercase` does to ASCII strings what it should (`DebugStr`, `UpperCase`).
* For C83, C84, C85 and C88 only: that `Verif/Spec/Reader.lean` is what the HTML standard prescribes wherever it gives a result, and that
  html5ever and the browser follow the standard there. Nothing is assumed where it gives none.

## What is modelled

| module | code |
|--------|------|
| `Model/Basic` | patch types, names, errors (`diff.rs`, `dom.rs`) |
| `Model/Arena` | `indextree::Arena`, traversals |
| `Model/DiffTree` | `cinereus/src/tree.rs`, attribute similarity and attribute diff |
| `Model/Matching` | `cinereus/src/matching.rs`: `Matching`, top-down, bottom-up, Dice, ancestry check |
| `Model/EditScript` | `cinereus/src/chawathe.rs` |
| `Model/Diff` | `diff.rs`: tree building, Merkle hashes, `diff`, `ShadowTree`, `convert_ops_with_shadow`, insert patches, reports about opaque elements |
| `Model/Dom` | `dom.rs`: `Document`, serializer, attribute setters, `apply_patches` |
| `Model/Api` | the public editing calls of `Document` |
| `Model/Navigate` | `dom.rs`: `parent`, `first_child`, `last_child`, `next_sibling`, `prev_sibling`, `child_count` of `Document`, on lists of children (links between nodes without parent are not modelled) |
| `Model/Sink` | `dom.rs`: doctype detection, `ArenaSink`, `finish`, `parse` as a function of the sink calls html5ever makes |
| `Model/SinkNames` | `dom.rs`: `Namespace::from_url` and `url`, `elem_name`, `create_element` with the name it is given |
| `Model/Server` | `hotmeal-server`: cache state machine, `inject_into_head`; back-off of the client |
| `Model/Wasm` | `hotmeal-wasm`: patch applier over an abstract DOM, `Slots` |
| `Model/WebDom` | `hotmeal-wasm`: names that the DOM rejects or lower-cases, fallback through `innerHTML` |
| `Model/Mount` | `hotmeal-wasm`: `resolve_mount_point`, `apply_patches_on`; CSS selectors as functions, and a part of the selector language |
| `Model/Loader` | `hotmeal-server`: `loader_script` |
| `Model/Tables` | `diff` with the tables and caches that the code keeps: node table, cached positions, lazy descendant sets, matching as growing vectors, iteration order of sets |
| `Model/Hash` | the bytes from which `diff.rs` computes the hash of a node, for an abstract hasher and an abstract hash of names |
| `Model/Numbers` | `diff.rs`: the casts of indices and slot numbers to `u32` |
| `Spec/Script` | not in the code: where a browser ends a script element, and the tokens of its text (HTML and ECMAScript standards, the part needed for `loader_script`) |
| `Spec/Reader` | not in the code: a partial HTML parser after sections 13.2 and 13.4 of the HTML standard (tokenizer and tree construction for pages, heads, bodies and fragments without repairs), with the calls of `ArenaSink` it makes |
| `Model/Client` | server and one client together, with lost connections |
| `Model/Visitors` | server and several clients of one route |
| `Model/WasmKeep` | `hotmeal-wasm`: the page that is left when a patch fails, and the client that only logs the error and goes on |
| `Model/Machine` | `diff` with tables, caches, doubles, 32-bit numbers and 64-bit hashes together |
| `Model/Template` | pages with `template` elements in a browser, in contrast to `get_template_contents` of `hotmeal/src/dom.rs` |
| `Model/Float` | the scoring and matching functions with the rounding of `f64` |
| `Model/Memory` | `tendril_to_stem_with_input` and `Stem` over a memory of bytes |
| `Model/Wire` | `Stem`, `into_owned`, proxies of names |
| `Model/Postcard` | events and patches as bytes: `to_postcard`, `from_postcard`, `facet_postcard::to_vec` and `from_slice`, and the client that gets bytes |
| `Model/Json` | patches as JSON: `facet_json::to_string` and `from_str`, `diff_html` and `apply_patches_json` of hotmeal-wasm |
| `Model/BodyHtml` | `hotmeal-wasm`: `set_body_inner_html`, `get_body_inner_html`, `apply_patches_json` on `document.body`, and the test harness of `index.html` and `tests/wasm.spec.ts` |
| `Model/Batches` | `dom.rs`: `apply_patch_with_slots`, and callers that apply patches one by one or list by list; `hotmeal-wasm`: `Slots` as a vector, `apply_patches_with_slots`, `apply_patches_with_slots_on` |
| `Model/Dumps` | `dom.rs`: `dump_node`, `dump_subtree`, `dump_body`; `hotmeal-wasm`: `dump_browser_dom`, `dump_rust_parsed`. What `{:?}` and `to_uppercase` make of a string are parameters |
| `Model/Display` | `diff.rs`: `Display` of `NodePath`, `PropKey` and `DiffError` (the texts of errors are those of the comments, as `facet(derive(Error))` documents) |
| `Model/PatchDebug` | `diff.rs`: `impl Debug for Patch`. What `{:?}` makes of a string is a parameter |

Specifications that share no code with the model: `Spec/Html` (HTML trees as values and their
serialization), `Spec/Patch` (patches as rewriting of tree values), `Spec/Edit` (edit scripts as descriptions), `Spec/Sound` (what a sound
document is). `Spec/OfForest` builds documents with a given body, for concrete cases.

## What is not modelled

* html5ever (tokenizer and tree builder). Parsing is a parameter where it is used, or a sequence of
  sink calls (`Model/Sink`). `Spec/Reader` has the part of the HTML standard that reads pages without repairs (tables,
  forms and ruby included; `select`, `template`, `noscript`, `svg` and `math` not).
* Parsing of CSS selectors.
* The roam protocol around the events, tracing, websocket transport, real browser behaviour beyond the DOM
  calls used by the applier. The page is an HTML document, not XHTML (this matters where the DOM lower-cases
  names).
* The exponent range of `f64`. Scores are exact fractions in `Model/Matching`; `Model/Float` has the same
  functions with rounding to 53 bits, and C56 shows that they agree for pages of up to 2^25 nodes.
* `u32`/`usize` overflow: indices and slots are unbounded naturals. C66 shows that the casts to `u32` in `diff`
  do nothing for documents of up to 2^30 nodes together, and for comparable pages whose bodies have up to 2^30 nodes
  together (`C66_bodies_fit_u32`); bodies have no more nodes than their texts have characters (`Parsed.size_le`).
* `u64` hash values: the hash is an abstract function. Where needed, freedom from collisions
  is an explicit hypothesis (`NoCollision`), satisfied by the free hash `Shape.node`. C70 derives it from the
  absence of collisions of the hasher and of the hash of names on what occurs in the two documents.
* Iteration order of `FxHashMap`/`FxHashSet`, except in `Model/Tables`, where it is a parameter. C69 shows that it
  cannot be observed in `diff`.
* C76 has tables, doubles, 32-bit numbers and 64-bit hashes together (`Model/Machine`) and shows that the result is that
  of `Model/Diff` for documents of up to 2^25 nodes together.
* Whether a `Stem` borrows from the input, except in `Model/Memory` (C57), which justifies that a `Stem` is its
  text in all other modules.
* Other debug output: `shadow_tree_dump.rs`, `node_label`, `Display` implementations of cinereus, `to_string` helpers for tests.

## Modelling conventions

* Strings are `List Char`. Node ids are `Nat`. An arena is a record of functions
  `parent`, `children`, `data` and a bound `next`.
* `&mut self` becomes returning the new value. A Rust panic is an explicit error value.
* Loops become structural recursion or folds. Unbounded walks use fuel, and a theorem shows
  that the fuel is enough.

## How the big theorems are put together

* *Round trip* (C01, C02, C03, C05, C16, C17, C28, C31, C41). `Lemmas/DiffPlan` derives from the
  matching what the edit script may rely on (`Plan`). `Lemmas/Step` and `Lemmas/Loop` carry an
  invariant through the phases: the shadow tree and the document that is being patched agree
  (`Sim`), and processed nodes are in their final place. `Lemmas/Final` concludes that the final
  tree mirrors the new one. The invariant is stated for an abstract applier (`Lemmas/Applier`), of which
  the library and the browser are two instances, so both get the theorem from one proof.
* *Totality and frame* (C48, C06). These have no hypothesis on the script. `Lemmas/Convert` has a
  weaker invariant (`ConvOk`) that survives Moves of a node below itself, hash collisions and
  changes of opacity: slots stay attached to a super root, the root of the old body is never
  taken away, and every node that a later operation names is still in the shadow tree.
  `Lemmas/Sealed` describes patches that cannot reach the body element itself.
* *Patches as rewriting* (C46, C47). `Lemmas/Grove` and `Lemmas/Rewrite` relate an arena with slots
  to a list of tree values; `Spec/Patch` says what each patch does to the values.
* *Determinacy of HTML* (C23): a decoder for serialized HTML, a left inverse of the serializer.

## Plan and outcome per property

'P' proved, 'V' the statement is violated by the code: the negation is proved with a witness and the part
that holds is proved as `_partial`, '-' partial for another reason.

| id | | how proved |
|----|-|------------|
| C01 | V | simulation, see above. Hypotheses of the partial theorem: sound documents with a body, same namespace of the bodies, no further `body` element inside, no hash collision, matched elements agree on being opaque (`OpaqueAgree`) or also on opaque content (`OpaqueFixed`), and no Move of a node below itself (`NoMoveBelowSelf`) or no inversion of ancestors by the matching (`NoInversion`; implied when the node kinds are layered, `C01_round_trip_layered_partial`, and when the nodes outside of unchanged pieces are layered, `C01_round_trip_pieces_partial`, from an invariant of the candidate loop in `Lemmas/Piece`: a pair on the way to the piece is on the stack until the piece is matched) |
| C02, C03 | V | from the same simulation |
| C04 | P | the top-down phase matches everything when root hashes agree; then each phase of the script is empty |
| C05 | V | negation by a witness; positive when the new body has an attribute or the old one has none |
| C06 | P | for every patch list of `diff` and for arbitrary patch lists whose paths are sealed. Hypothesis `SameBodyNs`: html5ever creates body elements in the HTML namespace; otherwise `C06_foreign_body_removed` |
| C07 | P | induction over the children of the body |
| C08, C09 | P | invariant of `add` over all call sites; C09 needs `NoCollision` inside subtrees matched by hash |
| C10-C13 | P | membership, counting and order lemmas on the script |
| C14, C15 | P | list induction, set cardinality |
| C16 | V | numbering is proved for every diff; that a slot is filled before it is used holds under the conditions of C01 and is violated otherwise |
| C17 | V | under the conditions of C01 |
| C18 | P | well-formedness invariant, induction over operation lists |
| C19 | P | induction over operation lists |
| C20-C24 | P | induction over strings and trees; C23 by a decoder |
| C25 | P | computation |
| C26 | V | case analysis and induction over the list; a failing Move loses its node. For the other patches `Props/Outcome.lean` has the converse: they are refused for no other reason |
| C27, C29 | P | invariant over call sequences |
| C28 | V | C31 and C01 along a sequence of calls |
| C30, C32 | P | induction over strings |
| C31 | V | two instances of the applier in one simulation |
| C33, C34 | P | case analysis and induction over sink calls |
| C35 | P | structural induction |
| C36 | P | the script has no operation about opaque content |
| C37 | V | membership; paths are those in the old document |
| C38 | V | as C04 with attributes free |
| C39 | P | decreasing measure; the fuelled loop ends with an empty stack |
| C40 | P | induction over trees; stack machine refines recursion; height by induction from the leaves |
| C41 | V | follows inserted and kept nodes through the simulation |
| C42 | P | invariant |
| C43 | V | the first child of the document node becomes the root |
| C44 | P | invariant over sink calls |
| C45 | V | the proxy drops an empty prefix |
| C46, C47 | P | refinement, see above |
| C48 | P | `ConvOk` invariant |
| C49 | V | invariant over calls with a flag whether the client is connected |
| C50 | V | structural induction; parser as a parameter |
| C51 | V | the candidate loop and both passes followed on trees of the same structure (Lemmas/Stay, StayUp) |
| C52 | V | the candidate loop reaches the pair along the ancestors and nothing else can take it (Lemmas/Unique); then node identity through the simulation; for whole pieces Lemmas/Piece |
| C53 | P | invariant of single arena operations: links agree, nothing beyond the body is touched (Lemmas/Links, LinksBrowser) |
| C54 | P | content is related to nodes of the new document by `CopyOf` (pruned copy), op by op; no Plan needed (Lemmas/Provenance) |
| C55 | P | each created node is traced to its source; two insertions cannot share one because an inserted node is skipped in the content of every other one (`Near.unique`); patches counted by kind (Lemmas/Traffic); quadratic bound for Moves below the node itself from the tokens of C66 |
| C56 | P | relative error of one rounding is at most 2^-53, small integers are exact; two fractions with denominators up to 2^25 are further apart than that (Lemmas/Float); every function of the matching is then the same |
| C57 | P | a piece of text begins with a first byte, so its start is between two characters; UTF-8 is a prefix code, so its end is as well |
| C58 | V | the pair of the block is taken before anything below it (Lemmas/Block), its operations never touch it, and no sibling operation changes its index (Lemmas/BlockRun); with opaque elements the same on the page of C78, whose nodes inside opaque elements are those of the scripts (Props/BlockWidgets) |
| C59 | P | equal bodies are renamings of each other; every function of the matching, of the edit script and of the conversion commutes with the renaming and asks the hash for equality only (Lemmas/Twin, TwinScript) |
| C60 | V | on the tree rewriting of C46 and C47: stores that agree up to the representation of names stay so under neutral patches; four witnesses for the others |
| C61 | V | bound on the number of children as an invariant of every page operation; patches of diff fit the bound (places from the edit script, content from C54); induction over the versions |
| C62 | V | simulation of the run of the patches on the arena by rewriting of trees, step by step along the trace of the conversion; then C46, C47, C60 for the copies |
| C63 | P | declarative reading of scripts (`Spec/Edit`), from the characterisation of each operation (C10 - C13) |
| C64 | V | `Sealed` (nothing outside is reached) for the operations of the page, the mirror of C28 with an arbitrary element as root, and induction over the page for the first match of a selector; which element a selector finds is read off the search (`Props/Select.lean`) |
| C65 | V | running the lexer over the pieces of the text; the number of characters of string values as a measure for the converse |
| C66 | P | bound on the children of shadow nodes as an invariant of the conversion; with Moves below the node itself by tokens that go from a moved node to its parent, each node being moved at most once (Lemmas/Budget, BudgetRun); one slot at most for an operation; tokens are needed for a set of nodes of the new tree that contains the parents of all that is put somewhere (`FewNodes`), which is the body when the roots are matched |
| C67 | P | the two searches agree with their specifications in terms of a table of letter pairs |
| C68 | V | the blocks of C58 leave no operation for the children in common; the conversion of the remaining insertions (pre-order) and deletions (post-order) is computed by induction over the subtrees, with the shadow tree followed exactly (Lemmas/Append) |
| C69 | P | every stateful function yields, in every state whose caches are right, the value of the function of the other modules, and leaves the caches right (`Yields`, Lemmas/Tables); the table is right by induction over the post-order; the set iterated over is only filtered and counted |
| C70 | V | no patches means an empty script, so C01 applies with the empty list; the encoding of a node for the hasher is decoded by position; with the pigeonhole principle every finite hash has two documents that differ and give no patches |
| C71 | V | by C10, C11, C12 the new root is accounted for exactly when the roots are matched; the first step of the bottom-up phase matches roots of a kind of their own; a childless new root is refused by every rule |
| C72 | V | invariant of C28 for a list of pages: all of them show what is cached; a visit keeps it if the page served is the cached one or the first |
| C73 | V | the client with the page as state kept on errors refines the client that stops; page after an error by cases on the failing patch; fence of C53 for it |
| C74 | V | rewriting of two stores that differ in some children of the root only, for patches that do not lead there (C58), gives C74 from C62; a fence around the nodes of these children for node identity |
| C75 | V | page with the content of templates apart from the child nodes; C74 with the templates' blocks as the changed blocks; counting of templates to see that there are none elsewhere |
| C76 | P | the lemmas of C69 hold for all scores that decide as exact fractions do (`Agrees`) and all casts that keep positions; doubles do by the lemmas of C56, casts to 32 bits by those of C66 |
| C77 | V | invariant of the run: the patched document is sound again (laws of the applier, `Lemmas/SoundRun`) and its nodes are copies of nodes of the version or empty texts (`Mirror`), so C01 applies again; ranks of tags are cut off at the largest one that occurs, texts rank above; opaque elements are empty in all versions (`Islands`) and stay so |
| C78 | V | virtual page: the page with the data of the old document where it shows it; frame of every run (`Trace.unharmed`): no operation is about a node inside an opaque element or puts anything there; copy of the run on the real page (`Agree`) that keeps the nodes; an opaque element that is the only one of its name is matched (`Sole`, as for C52) |
| C79 | V | C78 for the client that keeps the page on errors (`Model/WasmKeep`): the reports come last, so an error loses nothing; scripts inside opaque elements keep the relation between page and document (`Staged.scripted`); induction over the session with a relation that loading establishes and patches keep (`Server.keep_inv`) |
| C80 | V | invariant over the calls of the fragment parser: the context element is not attached and no other element is a `body` (`Sink.NoBody`); C07 for documents without bodies |
| C81 | P | a relation between a reader, bytes and a value (`Reads`) that composes along `do` blocks; induction over varints, sequences and content with the number of bytes as depth; every reader depends only on the bytes it takes (`Solid`), so a proper part of a message is rejected; induction over sessions |
| C82 | P | the text of a value is read back (`parse_print`) by induction on the length of the text, with a lemma about what may follow a number; decoding inverts encoding field by field; reading depends only on the text read (`value_append`), so the beginning of an array is rejected |
| C83 | V | run of the reader over the text of each construct (references, tags, attributes, comments, raw text, doctype), then induction over the tree with the open elements as parameter; the steps build the tree in the sink by induction with `Laid` (old nodes keep their place, new nodes have the trees). The documents read are sound whatever the text is (`readPage_sound`), so the assumptions about parsers can be met. Line ends: induction over the text (`newlines_crlf`) |
| C84 | V | what a parser that follows `Spec/Reader` makes of the text of a page meets all hypotheses of C31 and C49 (`Parsed`): a condition on the tree of a node gives the condition on the nodes below it (`every_below`), induction over the text for the names (`Plainly`), and ranks of tags for moves (`layered_of_tree`). Opaque elements are those with certain tags (`PageTree.ok`), which gives `Islands` and `Apart`; with scripts, C79 and induction over what is shown (`Staged.hollow`) |
| C85 | V | `innerHTML` is removing all children and appending copies of what the fragment parser makes (`Filled`); copies keep the arena sound and keep every property of the nodes (`makes_clone`); a body filled this way meets `Hosts` of C64 for the document that the server reads from the wrapped text (`wrap_read`), so that C64 gives the updates, with C82 for the JSON. For every text, `C85_set_body` says what changes. Violated by a move below itself, as C01 (`C85_violated`) |
| C86 | P | A patch that can be applied with some slots does the same with slots that hold these and more (`applyPatch_below`, `w_applyPatch_below`). With all slots this gives merging, since a list starts from slots that hold the body only; with the slots that a list refers to it gives splitting. C06 and C64 keep the body in its place between the calls. For a selector, `C86_mount_merge` asks that the lists leave the attributes of the mount point as they are, so that it is found again. `C86_cut_needs_slots`, `C86_merge_needs_body` and `C86_merge_needs_mount` show why the conditions are there. |
| C87 | P | what is printed is a list of rows with indentation and label; rows can be read back from the text (`rows_text_inj`), a forest can be read back from its rows (`rowsL_inj`, what follows is less indented), and a tree from its labels (`outline_inj`). The other way round: sorted lists with different names that are permutations of each other are equal |
| C88 | V | both functions are the same fold over the tree with different lines; these agree on what `shown` admits. `set_body_inner_html` keeps nodes in the namespace of HTML (`Filled` with another predicate), and `find_body` finds the body in what is read from the wrapped text. After patches (`C88_after_patches_partial`): patches keep the namespace of HTML (`Lemmas/HtmlPage.lean`), C64 gives the nodes of the page up to empty texts, and `drop_linesTL` says that an empty text is exactly one line more |
| C89 | P | the printed line is read from the left: numbers end where no digit follows (`num_inj`, from C82), paths end with a bracket; the tag is found from the right, because what follows it has no `>`. `diff` is followed through its four cases for `C89_diff_kinds` |
| C90 | V | both appliers look nodes up with the same loop (`navigate`), so the reasons to refuse a patch can be stated once (`Refused`, `Props/Outcome.lean`); a new node is never above its target, so that its insertion goes through in both |
| C91 | P | invariant over sink calls: each call keeps every node there is (`Sink.KeepsAll`): an element its tag, namespace and attributes, to which others may be added, a text its beginning |
| C92 | P | a sibling is found from any way to split the list of children (`nextSibling_at`, `prevSibling_at`); the tour of the subtree by induction from children to parents, with the node where the tour goes on afterwards as parameter (`tour_below`); C18 for the edits |
| C93 | V | the texts are read from the left as in C89; numbers end at a dot or a space. `C26_refused_iff` gives the errors that can occur |
| C94 | P | invariants over sink calls: each call adds the text it delivers to the texts of all nodes, up to order (`text_run`), and each node comes from calls made so far (`AllFrom`) |

## Findings

Behaviour of the code that contradicts a property or surprised us. Each is proved in the model for a
concrete witness unless marked "read off the code".

1. *A node that moves below its own descendant* (C01, C02, C16, C17, C28, C31). The matching may pair an
   old ancestor with a new descendant and vice versa. The Moves follow the order of the matching's
   pairs, and `convert_ops_with_shadow` then moves children out of the way but the paths of later
   patches no longer fit. `C01_violated`: `apply_patches` returns `PathOutOfBounds`.
   `C01_violated_silently`: it succeeds with a wrong body. No opaque elements or attributes needed.
2. *Stale body attributes* (C05). The tree built for the old document has no attributes at its root, so the
   diff does not see the attributes of the old body. An attribute that the new body lacks stays
   (when the new body has no attributes at all), and identical bodies with attributes give an
   `UpdateProps`.
3. *Slots that nobody fills* (C16). With an opaque element in the new document, two passes of the
   matching (`pass1Position`, `pass2Local`) can match into opaque content when matched parents
   disagree on being opaque. A generated path may then start with a slot that no earlier patch has filled.
4. *A failing Move is not undone* (C26). `apply_move` detaches the node before it looks up the target; on an
   error the node is gone. `apply_patches` is not atomic either: earlier patches keep their effect.
5. *Reports about opaque elements* (C37, C28). Their paths are computed in the old document but they
   come last, so after inserts and moves they may address another element or none at all. Changes of
   attributes inside opaque content are not reported, because the hash leaves attributes out.
6. *Removing the opaque attribute* (C38). The content that becomes visible is inserted anew while the old
   content stays.
7. *Namespaces* (C41). Inserted SVG and MathML elements become HTML elements: `InsertElement` carries no
   namespace.
8. *A comment before `<html>`* (C43). `finish` takes the first child of the document node as root. With a
   comment there, `body()` finds nothing, `to_html` writes only the comment and `diff` is empty.
9. *Empty prefixes* (C45). The proxies drop an empty prefix. The serializer writes `:xmlns` for a
   prefix `Some("")` (`dom.rs:860`) and the browser client's `UpdateProps` also writes `:local`, while its other
   places filter the empty prefix.
10. *Library and browser differ on patches* (C47, `C47_appliers_differ`): a node put at an occupied index
    without a slot shifts the others in the library and loses the occupant in the browser; setting the
    text of an element; attributes are known to the browser by written name only; `OpaqueChanged` is only an event in
    the browser.
11. *Foreign body* (`C06_foreign_body_removed`). When the bodies have different namespaces the diff
    removes the body element itself. html5ever does not produce this.
12. *`<header` is taken for `<head`* (C30, `C30_header_is_taken_for_head`) by `inject_into_head`.
13. *Names in the browser* (C31, C28). `setAttribute` lower-cases, so an inserted `<svg viewBox=..>` gets
    `viewbox`; a later `UpdateProps` that says "viewBox unchanged" then finds no value and the value is lost
    (`C28_violated_case`). `createElement` lower-cases too, so an inserted `linearGradient` becomes a
    `lineargradient` (`C28_violated_tag_case`). A name that `setAttribute` rejects (`@click`) makes `UpdateProps` and `SetAttribute`
    fail on an existing element, and the remaining patches are dropped (`C31_violated_names`).
14. *Missed updates* (C49). A client that was away applies the patches of the next update to the page it has;
    this may succeed and show neither the old nor the new page.
15. *HTML of the fallback* (C50). `serialize_insert_content` closes void elements (`</br>` parses as a second
    `br`) and escapes the text of `script` and `style`.
16. Read off the code: a hand-written Move of `[0]` into `[0,0]` panics in indextree; the
    client ignores the route of an event. `parse_body_fragment` returns documents without a body element, so
    the diff of two fragments is always empty (C80, `C80_violated`), and the fuzz target `apply_parity`, which
    diffs fragments, only ever applies empty patch lists.
17. *Text edits that recreate elements* (C51). `<p>a</p>` to `<p>b</p>` gives SetText, InsertElement, Move and
    Remove. The parent of the new body is `html`, so the fallback for roots in pass 1 never applies; the bodies
    are matched by their descendants only (Dice at least 1/2), otherwise by force after the matching, too late
    for their children to be matched by position. Attributes on the body have the same effect, because the old
    root has none and the similarity is 0. Equal siblings may be matched crosswise.
18. *Unchanged content that is created again* (C52). Putting `<p>a</p>` into a new `div` makes a new `p` and
    moves only the text: the candidates of the top-down phase are children of earlier candidates, so
    equal subtrees at different depths are never compared there. And when `<p>a<b></b></p>` is added after an
    unchanged `<p>a</p>`, the text node of the unchanged paragraph is moved to the added one and a new text node
    takes its place.
19. *Hand-written patch lists* (C53, C26). The library does not check that the parent of an insertion is an
    element: content inserted below a text is accepted and never shown (the browser client reports an error).
    The library keeps a slot after its node was moved back, so a Move of `[1]` to `[1,0,0]` links displaced nodes
    into a loop; by its documentation indextree loops forever when something is appended to such a node later.
20. *An unchanged list is torn apart* (C58). Candidate pairs of the same content are worked off from the last
    pair to the first. When a second list gets a copy of an item of the first, the item is matched into the
    second list before the lists themselves are matched, so the diff moves the item out of the unchanged first
    list and inserts a copy there (`C58_violated`). The result is right; focus and state of the item go along
    to the other list.
21. *The appliers differ on other lists than those of diff* (C60). An insertion at a taken index without a slot
    shifts the following nodes in the library and drops a node on the page; the text of `UpdateProps` on an
    element is ignored by the library and replaces the content on the page; two names that are written alike are
    two attributes in the library and one on the page.
22. *A library document fills up with empty texts* (C61). When a document of the library is kept in step with
    patches computed from the rendered versions, as a page is, `Insert` shifts the empty text that an earlier
    `Remove` left instead of taking its place. Two versions that take turns leave one more empty text per turn.
    The page takes the place and does not grow.
23. *The mount point loses its identity* (C64, `C64_mount_point_lost`). The attributes of the new body are written
    to the mount point and replace the ones it has. With `#content` as selector and a version whose body has a
    class, the mount point loses its `id`; this update still succeeds, and every later one fails with "mount
    point not found".
24. *The arguments of the script tag are not escaped* (C65, `C65_violated`, `C65_injection`). `loader_script` puts
    URLs and the selector between double quotes as they are. A selector with a quoted attribute value gives a
    script that is no program; a URL with `"` or `</script>` brings in other code or other markup.
25. *A head without `<html` or `<body` goes into the body* (C67, `C67_surprising`). The input
    `<head><title>a</title></head><p>b` is wrapped in `<html><body>`, so that the title ends up in the body. The tags
    are looked for anywhere in the text, also in comments, scripts and attribute values.
26. *Content added at the end can move content at the start* (C68, `C68_violated`). When an added paragraph has the
    content of an existing one, the existing one is moved to the end and a copy is inserted in its place.
    *Content added in front moves everything behind it* (`C68_prepending_moves`): a matched child at another index
    than in the old page is always moved, so that one new item at the start of a list of n items gives n moves. The
    result is right, but focus, selection and the state of frames and media in the moved elements are lost.
27. *A renamed element can go unnoticed* (C70, `C70_violated`, `C70_renamed_elements_are_missed`). Subtrees with the
    same hash are taken to be equal without a look at the names inside. For every hash function with finitely many
    values there are two bodies that differ in the name of an element and for which `diff` returns no patches. The
    names enter the hash by a hash of 32 bits (`string_cache::Atom`), so that two names with the same one cannot be
    told apart by any hasher. By the published source of `string_cache` (not in the repository, and not checked here)
    names of up to seven bytes are hashed by folding 64 bits to 32 by exclusive or; then `x-a` and `x-ap` collide
    (`C70_violated_short_names`). A wrong text cannot stay: the texts of matched nodes are compared.
28. *A tree that loses all children of its root loses the root too* (C71, `C71_emptied_tree_violated`). For users of
    `cinereus` alone: when the old root has children and the new root has none, no rule of the matcher pairs the
    roots, even if they are of the same kind. `diff_trees` then deletes the old root and says nothing about the new
    one, because an insertion needs a parent. The same happens when the roots are of different kinds
    (`C63_needs_matched_roots`) or when the old root is matched with an inner node of the new tree. `diff` of hotmeal
    is not affected, since it adds the pair of roots itself.
29. *A visitor between a change and its announcement cuts off everyone else* (C72, `C72_violated`). The doc comment of
    `cache_html` says to call it when serving a page. The server has one cached version per route, not one per
    client. If the content has changed and a browser loads the new version before the application calls `diff_route`,
    the new version is cached already, `diff_route` finds nothing to do, and the browsers that show the old version
    hear nothing. This holds for every pair of versions. The next change is sent to them as patches relative to a
    version they never had, and they apply these without an error (`C72_violated_mixture`). If everyone is served
    what is cached, all browsers stay up to date (`C72_every_visitor_sees_the_page_partial`).
30. *An error in the browser can take away more than the update* (C73). The client writes an error to the console and
    goes on with the next event. The page is then what the patches before the failing one have made of it, with two
    exceptions. `UpdateProps` removes all attributes of the element before it sets the new ones one by one, so if
    `setAttribute` rejects the first name, the element keeps no attribute at all (`C73_violated_attributes`, for all
    elements). Names such as `@click` get into the page by way of the HTML parser, and are listed in `UpdateProps`
    even if only another attribute changes. `Move` has taken its node out of the page before it looks for the target
    (`C73_violated_move`). The server does not learn of the error: it sends the next patches relative to a version
    that the browser does not show, and not even a change back to the old version repairs the page
    (`C73_violated_live`, with patches made by `diff`). The page stays a tree, nothing outside the mount point is
    touched, and the next reload heals it.
31. *What a script has changed may be moved or lost* (C74). Patches address nodes by index, and `diff` moves nodes that
    look the same in the versions of the server. If a script has changed an item of a list, and the new version has the
    old item elsewhere too, then the changed item is moved there: the page shows the text of the script in a place the
    script has nothing to do with (`C74_violated`). A node that a script or an extension of the browser has added at the
    end of the body is replaced by the next block that is added at the end, as an insert without a slot replaces what is
    at its index (`C74_violated_added`). Blocks that are the same in both versions and share no part with the rest of
    the page may have been changed in any way.
32. *Templates* (C75). The library takes the content of a `<template>` for children of the element
    (`get_template_contents` returns the element itself). In a browser the element has no child nodes. A patch that
    leads into a template fails in the browser (`C75_violated_inside`, for all pages), and with it the rest of the update
    (`C75_violated_changed`). A template that is new in a page gets child nodes in place of content, so scripts that clone
    its content get nothing (`C75_violated_new`). Templates in blocks that do not change do no harm. The fuzz targets
    skip pages with templates.

33. *An up-to-date document is never quiet* (C77). `Remove` puts an empty text in the place of the node
    (dom.rs:550-560). The next `diff` of the document against the same version sees that text, asks to remove it, and
    its `Remove` again leaves an empty text. `C77_never_settles` shows this for any number of updates. The HTML
    text does not show it, but a program that waits for an empty patch list waits for ever. Another way to fail is
    `C77_violated_by_opaque_content`: a report about an opaque element has the path of the old document (finding of
    C37), `apply_patches` replaces what is there now, and a paragraph loses its text.
34. *Opaque and ordinary elements of one name* (C78). The first phase of the matching (matching.rs:214-264)
    matches any candidate pair of one kind as soon as one of the two is opaque, the last pair first. When an
    opaque `div` is followed by an ordinary one whose text changes, each is matched with the other. The content
    that a script has drawn into the opaque `div` is lost (`C78_violated`).
35. *Keys of opaque elements* (C78). The value of `data-hotmeal-opaque` plays no part in the matching. When two
    opaque elements of one name change places, only their attributes are exchanged and nothing is reported.
    Each key ends up with the content that was drawn for the other one (`C78_violated_by_keys`).
36. *A second opaque element takes the first one away* (C58). For the reason of finding 34, an opaque element
    that is added to a page can be matched with one that stays as it is. The patches take the old element, with
    everything that a script has drawn into it, out of a section that has not changed, put it where the new
    element should be, and insert an empty copy into the unchanged section (`C58_violated_by_widgets`). The
    report about the new content has the path of the place from which the element was taken.
37. *What is written and read again* (C83). `to_html` writes the text of a `pre`, `listing` or `textarea` as it is, and a
    line feed at its beginning is dropped when it is read. A carriage return is written as it is and read as a line
    feed. A comment is written as it is; with `-->` in it, the rest becomes text and elements. Likewise
    `</script>` in a script. The text of an `iframe` or `noembed` is escaped though the parser reads it as it
    stands, so every round adds another `amp;`. Texts next to each other become one text (`C83_violated`).
    Pages without these come back as they were.
38. *What is printed for debugging* (C87, C88). `dump_browser_dom` and `dump_rust_parsed` print comments differently
    (`Node(type=8)` and the text of the comment), and names with letters that are not ASCII. After patches, the page may
    have empty text nodes that the library's reading does not have, so that the outputs differ though the page is right
    (`C88_violated`). Both print a space as a middle dot, and a middle dot as itself (`C88_texts_confused`).
    `dump_body` tells bodies apart, except for prefixes of attributes (`C87_prefix_not_shown`).
39. *Who refuses which patch* (C90). A SetText of an element is an error in the library, while the client replaces
    all children of the element by the text. Inserts below a text and opaque content of a text are applied by the library
    and refused by the client. The client ignores the removal of a slot that is not in use. It takes a slot out of use
    when its node is moved back, the library does not; so a second Move of the same slot is an error in the client only.
40. *What is shown of a property* (C93). `Display` of `PropKey` shows an attribute called `_text` like the text of a node,
    `xlink:href` of an HTML element (one name) like that of an SVG element (prefix and name), and leaves the namespace out.
