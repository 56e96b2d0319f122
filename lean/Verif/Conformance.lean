import Verif.Props.Append
import Verif.Model.Sink

set_option autoImplicit false

/-!
# The model against the tests of the project

The sandbox cannot run the code, but the tests in `/repo` record what the code does on some inputs. Here the model is
run on the same inputs. This checks the translation from Rust to Lean (the part of the trusted base that the kernel
cannot check); it proves no property. Where a test starts from HTML text, the result of html5ever is written
down by hand. Hashes are free of collisions (`Shape.node`) unless a test gives them.
-/

namespace Hotmeal
namespace Conformance

/-- A text. -/
def tx (s : String) : Html := .text s.toList

/-- The parser of the content of opaque elements, for given contents. -/
def tableParse (tbl : List (List Html)) (s : Str) : Document :=
  match tbl.find? fun cs => decide (opaqueWrapper (Html.serL false cs) = s) with
  | some cs => .ofForest [ex "div" [] cs]
  | none => .new

/-- `run_roundtrip_test`, hotmeal/tests/roundtrip.rs:17-57. -/
def trips (tbl : List (List Html)) (old new : List Html) : Bool :=
  match diff Shape.node (.ofForest old) (.ofForest new) with
  | .ok ps => match applyPatches (tableParse tbl) (.ofForest old) ps with
    | .ok D => decide (D.toHtml = (Document.ofForest new).toHtml)
    | .error _ => false
  | .error _ => false

/-- `thrall::test_roundtrip`: the page shows the new body after the patches. -/
def shows (old new : List Html) : Bool :=
  match diff Shape.node (.ofForest old) (.ofForest new) with
  | .ok ps => match WebDom.lenient.applyPatches 2 (Document.ofForest old).arena ps with
    | .ok D => decide ((D.tree 2).inner = (Document.ofForest new).toBodyHtml)
    | .error _ => false
  | .error _ => false

/-- A condition on the patches of a diff. -/
def patchesSatisfy (old new : List Html) (p : List Patch → Bool) : Bool :=
  match diff Shape.node (.ofForest old) (.ofForest new) with
  | .ok ps => p ps
  | .error _ => false

/-- The result of hand-written patches. -/
def after (old : List Html) (ps : List Patch) : String :=
  match applyPatches (fun _ => .new) (.ofForest old) ps with
  | .ok D => String.ofList D.toHtml
  | .error _ => "error"

/-- A tree of the tests of cinereus: every node but the first has a parent; hash and kind of each node are given. -/
def tree (nodes : List (Nat × Nat × String)) (opq : List Nat := []) (attrs : List (Nat × Attrs) := []) :
    DiffTree Nat :=
  let kids := fun p => (List.range nodes.length).filter fun n => decide (0 < n ∧ (nodes.getD n (0, 0, "")).1 = p)
  let A : Arena TData :=
    { next := nodes.length
      parent := fun n => if 0 < n ∧ n < nodes.length then some (nodes.getD n (0, 0, "")).1 else none
      children := kids
      data := fun n =>
        ⟨.element (nodes.getD n (0, 0, "")).2.2.toList .html,
          ((attrs.find? fun x => decide (x.1 = n)).map Prod.snd).getD [], none⟩ }
  { DiffTree.ofArena (fun _ _ _ => 0) A 0 with
    hash := fun n => (nodes.getD n (0, 0, "")).2.1
    isOpaque := fun n => decide (n ∈ opq) }

/-- `MatchingConfig::default()`, matching.rs:150-157. -/
def dflt : Config := ⟨⟨1, 2⟩, 1⟩


/-! ## hotmeal/tests/roundtrip-cases -/

/-- `add-second-p-same-text.html`, tests/roundtrip-cases. -/
example : trips []
    [ex "p" [] [tx " "]]
    [ex "p" [] [tx " "], ex "p" [("class", "a")] [tx " "]] = true := by decide +kernel

/-- `attr-add.html`, tests/roundtrip-cases. -/
example : trips []
    [ex "div" [] [tx "Content"]]
    [ex "div" [("id", "main")] [tx "Content"]] = true := by decide +kernel

/-- `attr-change.html`, tests/roundtrip-cases. -/
example : trips []
    [ex "div" [("class", "old")] [tx "Content"]]
    [ex "div" [("class", "new")] [tx "Content"]] = true := by decide +kernel

/-- `attr-remove.html`, tests/roundtrip-cases. -/
example : trips []
    [ex "div" [("id", "main")] [tx "Content"]]
    [ex "div" [] [tx "Content"]] = true := by decide +kernel

/-- `body-text-change.html`, tests/roundtrip-cases. -/
example : trips []
    [tx "0"]
    [tx "A"] = true := by decide +kernel

/-- `empty-div-add-child.html`, tests/roundtrip-cases. -/
example : trips []
    [ex "div" [] []]
    [ex "div" [("id", "a")] [ex "p" [] [tx "a"]]] = true := by decide +kernel

/-- `fuzz-card-restructure.html`, tests/roundtrip-cases. -/
example : trips []
    [ex "div" [("class", "card")] [ex "div" [("class", "card-header")] [ex "h2" [] [tx "Card Title"]], ex "div"
    [("class", "card-body")] [ex "p" [] [tx "Card content goes here."], ex "button" [] [tx "Action"]]]]
    [ex "div" [("class", "card")] [ex "strong" [] [ex "div" [] [ex "strong" [] [tx "sibling"], ex "div" [] [ex "h2" []
    [tx "Card Title"]]]], ex "div" [("class", "card-body")] [ex "p" [] [tx "Card content goes here."]]]] = true := by decide +kernel

/-- `identical.html`, tests/roundtrip-cases. -/
example : trips []
    [ex "p" [] [tx "Same content"]]
    [ex "p" [] [tx "Same content"]] = true := by decide +kernel

/-- `insert-at-end.html`, tests/roundtrip-cases. -/
example : trips []
    [ex "p" [] [tx "First"]]
    [ex "p" [] [tx "First"], ex "p" [] [tx "Second"]] = true := by decide +kernel

/-- `insert-at-start.html`, tests/roundtrip-cases. -/
example : trips []
    [ex "p" [] [tx "A"], ex "p" [] [tx "B"]]
    [ex "p" [] [tx "X"], ex "p" [] [tx "A"], ex "p" [] [tx "B"]] = true := by decide +kernel

/-- `insert-in-middle.html`, tests/roundtrip-cases. -/
example : trips []
    [ex "p" [] [tx "A"], ex "p" [] [tx "B"]]
    [ex "p" [] [tx "A"], ex "p" [] [tx "X"], ex "p" [] [tx "B"]] = true := by decide +kernel

/-- `issue-1846-nested-divs.html`, tests/roundtrip-cases. -/
example : trips []
    [ex "div" [] [ex "div" [] []]]
    [tx "A", ex "div" [] [ex "div" [] [tx " "]]] = true := by decide +kernel

/-- `mixed-changes.html`, tests/roundtrip-cases. -/
example : trips []
    [ex "div" [("class", "box")] [ex "p" [] [tx "One"], ex "p" [] [tx "Two"]]]
    [ex "div" [("class", "container")] [ex "p" [] [tx "One"], ex "p" [] [tx "Modified"], ex "p" [] [tx "Three"]]] = true := by decide +kernel

/-- `move-first-to-end.html`, tests/roundtrip-cases. -/
example : trips []
    [ex "p" [] [tx "A"], ex "p" [] [tx "B"], ex "p" [] [tx "C"]]
    [ex "p" [] [tx "B"], ex "p" [] [tx "C"], ex "p" [] [tx "A"]] = true := by decide +kernel

/-- `nested-text-change.html`, tests/roundtrip-cases. -/
example : trips []
    [ex "div" [] [ex "span" [] [tx "Hello"]]]
    [ex "div" [] [ex "span" [] [tx "World"]]] = true := by decide +kernel

/-- `newline-in-text.html`, tests/roundtrip-cases. -/
example : trips []
    [ex "my-header" [] [tx "\n      App Title\n    "]]
    [ex "my-header" [] [tx "\n      中文App Title\n    "]] = true := by decide +kernel

/-- `newlines-between-elements.html`, tests/roundtrip-cases. -/
example : trips []
    [ex "ul" [] [tx "\n    ", ex "li" [] [tx "Item A"], tx "\n    ", ex "li" [] [tx "Item B"], tx "\n"]]
    [ex "ul" [] [tx "\n    ", ex "li" [] [tx "Item A"], tx "\n    ", ex "li" [("class", "hidden")] [tx "Item B"], tx
    "\n"]] = true := by decide +kernel

/-- `opaque-content-changed.html`, tests/roundtrip-cases. -/
example : trips [[ex "p" [] [tx "new content"]]]
    [ex "div" [("data-hotmeal-opaque", "")] [ex "p" [] [tx "old content"]]]
    [ex "div" [("data-hotmeal-opaque", "")] [ex "p" [] [tx "new content"]]] = true := by decide +kernel

/-- `opaque-deeply-nested-change.html`, tests/roundtrip-cases. -/
example : trips [[ex "div" [("class", "wrapper")] [ex "ul" [] [ex "li" [] [tx "item A"], ex "li" [] [tx "item B"], ex "li" [] [tx
    "item C"]]]]]
    [ex "div" [("data-hotmeal-opaque", "")] [ex "div" [("class", "wrapper")] [ex "ul" [] [ex "li" [] [tx "item 1"], ex
    "li" [] [tx "item 2"]]]]]
    [ex "div" [("data-hotmeal-opaque", "")] [ex "div" [("class", "wrapper")] [ex "ul" [] [ex "li" [] [tx "item A"], ex
    "li" [] [tx "item B"], ex "li" [] [tx "item C"]]]]] = true := by decide +kernel

/-- `opaque-multiple-siblings.html`, tests/roundtrip-cases. -/
example : trips [[ex "svg" [] [tx "replaced 1"]], [ex "svg" [] [tx "replaced 2"]]]
    [ex "div" [("data-hotmeal-opaque", "")] [ex "p" [] [tx "chart 1"]], ex "p" [] [tx "text between"], ex "div"
    [("data-hotmeal-opaque", "")] [ex "p" [] [tx "chart 2"]]]
    [ex "div" [("data-hotmeal-opaque", "")] [ex "svg" [] [tx "replaced 1"]], ex "p" [] [tx "updated text"], ex "div"
    [("data-hotmeal-opaque", "")] [ex "svg" [] [tx "replaced 2"]]] = true := by decide +kernel

/-- `opaque-structural-change.html`, tests/roundtrip-cases. -/
example : trips [[ex "svg" [("xmlns", "http://www.w3.org/2000/svg"), ("width", "100"), ("height", "100")] [ex "rect" [("x", "10"),
    ("y", "10")] []]]]
    [ex "div" [("data-hotmeal-opaque", "")] [ex "pre" [("class", "mermaid")] [tx "graph TD; A-->B;"]]]
    [ex "div" [("data-hotmeal-opaque", "")] [ex "svg" [("xmlns", "http://www.w3.org/2000/svg"), ("width", "100"),
    ("height", "100")] [ex "rect" [("x", "10"), ("y", "10")] []]]] = true := by decide +kernel

/-- `opaque-unchanged.html`, tests/roundtrip-cases. -/
example : trips [[ex "p" [] [tx "hello"]]]
    [ex "div" [("data-hotmeal-opaque", "")] [ex "p" [] [tx "hello"]]]
    [ex "div" [("data-hotmeal-opaque", "")] [ex "p" [] [tx "hello"]]] = true := by decide +kernel

/-- `opaque-with-sibling-changes.html`, tests/roundtrip-cases. -/
example : trips [[ex "p" [] [tx "new"]]]
    [ex "div" [("data-hotmeal-opaque", "")] [ex "p" [] [tx "old"]], ex "span" [] [tx "before"]]
    [ex "div" [("data-hotmeal-opaque", "")] [ex "p" [] [tx "new"]], ex "span" [] [tx "after"]] = true := by decide +kernel

/-- `remove-from-end.html`, tests/roundtrip-cases. -/
example : trips []
    [ex "p" [] [tx "First"], ex "p" [] [tx "Second"]]
    [ex "p" [] [tx "First"]] = true := by decide +kernel

/-- `remove-from-middle.html`, tests/roundtrip-cases. -/
example : trips []
    [ex "p" [] [tx "A"], ex "p" [] [tx "B"], ex "p" [] [tx "C"]]
    [ex "p" [] [tx "A"], ex "p" [] [tx "C"]] = true := by decide +kernel

/-- `remove-from-start.html`, tests/roundtrip-cases. -/
example : trips []
    [ex "p" [] [tx "A"], ex "p" [] [tx "B"], ex "p" [] [tx "C"]]
    [ex "p" [] [tx "B"], ex "p" [] [tx "C"]] = true := by decide +kernel

/-- `replace-div-with-p-attrs.html`, tests/roundtrip-cases. -/
example : trips []
    [ex "div" [] []]
    [ex "p" [("class", "a")] [tx " "]] = true := by decide +kernel

/-- `replace-element-type.html`, tests/roundtrip-cases. -/
example : trips []
    [ex "p" [] [tx "a"]]
    [ex "div" [] []] = true := by decide +kernel

/-- `swap-different-types.html`, tests/roundtrip-cases. -/
example : trips []
    [ex "span" [] [tx "A"], ex "div" [] [tx "B"]]
    [ex "div" [] [tx "B"], ex "span" [] [tx "A"]] = true := by decide +kernel

/-- `swap-two.html`, tests/roundtrip-cases. -/
example : trips []
    [ex "p" [] [tx "A"], ex "p" [] [tx "B"]]
    [ex "p" [] [tx "B"], ex "p" [] [tx "A"]] = true := by decide +kernel

/-- `text-change.html`, tests/roundtrip-cases. -/
example : trips []
    [ex "p" [] [tx "Hello"]]
    [ex "p" [] [tx "Goodbye"]] = true := by decide +kernel

/-- `text-moves-into-div.html`, tests/roundtrip-cases. -/
example : trips []
    [tx "0", ex "div" [] []]
    [ex "div" [] [tx "0"]] = true := by decide +kernel

/-- `text-with-newlines.html`, tests/roundtrip-cases. -/
example : trips []
    [ex "my-header" [] [tx "\n      App Title\n    "]]
    [ex "my-header" [] [tx "\n      New Title\n    "]] = true := by decide +kernel

/-- `wrap-in-div.html`, tests/roundtrip-cases. -/
example : trips []
    [ex "p" [] [tx "A"]]
    [ex "div" [] [ex "p" [] [tx "a"], ex "p" [] [tx "A"]]] = true := by decide +kernel

/-! ## hotmeal/src/diff.rs, tests that apply the patches -/

/-- `test_diff_remove_all_children`, hotmeal/src/diff.rs:2083. -/
example : trips []
    [ex "span" [] []]
    [] = true := by decide +kernel

/-- `test_diff_complex_fuzzer_case`, hotmeal/src/diff.rs:2105. -/
example : trips []
    [ex "strong" [] [tx "old"]]
    [tx "new_text", ex "strong" [] [tx "updated"]] = true := by decide +kernel

/-- `test_diff_actual_fuzzer_crash`, hotmeal/src/diff.rs:2126. -/
example : trips []
    [ex "strong" [] [tx "text1"], ex "strong" [] [tx "text2"], ex "img" [] []]
    [tx "text3", ex "strong" [] [tx "text4"]] = true := by decide +kernel

/-- `test_fuzzer_special_chars`, hotmeal/src/diff.rs:2150. -/
example : trips []
    [ex "strong" [] [tx "n<&nhnnz\"\"\"\" v"], ex "strong" [] [tx "< bit", ex "jva" [("xx", ""), ("a", "")] []], ex
    "img" [("src", "n"), ("alt", "v")] []]
    [tx "n", ex "strong" [] [tx "aaa"]] = true := by decide +kernel

/-- `test_fuzzer_img_li_roundtrip`, hotmeal/src/diff.rs:2180. -/
example : trips []
    [ex "p" [] [tx "Unclosed paragraph", ex "span" [("class", "")] []], ex "div" [] [tx
    "Inside P which browsers will auto-close"], ex "span" [] [tx "Unclosed span", ex "div" [] [tx "Block in span"]]]
    [ex "img" [("src", "vvv"), ("alt", "ttt")] [], tx "d ", ex "li" [] [tx "d<<<&<", ex "a\"d" [("<<<<", ""), ("li",
    "")] []]] = true := by decide +kernel

/-- `test_fuzzer_nested_ul_remove`, hotmeal/src/diff.rs:2206. -/
example : trips []
    [ex "ul" [("class", "h")] [ex "ul" [("class", "z")] [ex "img" [("src", "vvv"), ("alt", "wvv")] [], ex "ul"
    [("class", "h")] [ex "img" [("src", "vvv")] []]]]]
    [ex "ul" [("class", "h")] [ex "ul" [("class", "h")] [], ex "ul" [("class", "q")] [ex "img" [("src", "aaa")] []]]] = true := by decide +kernel

/-- `test_fuzzer_em_li_navigate_text`, hotmeal/src/diff.rs:2231. -/
example : trips []
    [ex "em" [] [tx " ", ex "v<" [("<<", ""), ("v<", ""), ("em", "")] []]]
    [ex "li" [] [tx "a< ", ex "v<" [("<<<", ""), ("li", "")] [ex "img" [("src", "")] []]]] = true := by decide +kernel

/-- `test_fuzzer_nested_ol_patch_order`, hotmeal/src/diff.rs:2257. -/
example : trips []
    [ex "ol" [("start", "0")] []]
    [ex "ol" [("start", "255")] [], ex "ol" [("start", "93")] [], ex "ol" [("start", "91")] [ex "ol" [("start", "1")]
    [ex "a" [("href", "vaaaaaaaaaaaaa")] []]]] = true := by decide +kernel

/-- `test_fuzzer_slot_contains_text`, hotmeal/src/diff.rs:2281. -/
example : trips []
    [ex "article" [] [ex "code" [] [tx "<"], ex "code" [] [tx "<"], ex "code" [] [tx "<"], ex "code" [] [tx "<"]]]
    [ex "code" [] [tx "<"], ex "code" [] [tx "<"], ex "code" [] [tx "<"], ex "code" [] [tx "<"], ex "article" [] [ex
    "code" [] [tx "<"], ex "code" [] [tx "<"], ex "h2" [] [tx "<<<<<<<<<<<<<"]]] = true := by decide +kernel

/-- `test_fuzzer_article_code_move`, hotmeal/src/diff.rs:2305. -/
example : trips []
    [ex "article" [] [ex "code" [] [tx "<"], ex "code" [] [tx "<"], ex "code" [] [tx "<"], ex "code" [] [tx "<"], ex
    "article" [] [ex "article" [] [ex "code" [] [tx "<"]]]]]
    [ex "code" [] [tx "<"], ex "code" [] [tx "<"], ex "code" [] [tx "<"], ex "code" [] [tx "<"], ex "article" [] [ex
    "code" [] [tx "<"], ex "code" [] [tx "<"], ex "h2" [] [tx "<<<<<<<<<<<<<"]]] = true := by decide +kernel

/-- `test_fuzz_seed_27_template_4`, hotmeal/src/diff.rs:2417. The test asks only that the patches apply. -/
example : trips []
    [ex "div" [] [tx "\n    ", ex "h3" [] [tx "Features"], tx "\n    ", ex "ul" [] [tx "\n      ", ex "li" [] [tx
    "Feature one with ", ex "code" [] [tx "code"]], tx "\n      ", ex "li" [] [tx "Feature two with ", ex "strong" []
    [tx "emphasis"]], tx "\n      ", ex "li" [] [tx "Feature three"], tx "\n    "], tx "\n  "]]
    [ex "div" [("title", "primary")] [tx "\n    ", ex "h3" [] [tx "Features"], tx "\n    ", ex "ul" [] [tx "\n      ",
    ex "li" [] [tx "Feature one with ", ex "code" [] [tx "item"]], tx "\n\n\n    "], tx "\n  "]] = true := by decide +kernel

/-- `test_patch_json_roundtrip_with_unicode`, hotmeal/src/diff.rs:2741. -/
example : trips []
    [ex "my-header" [] [tx "\n      ", ex "h1" [] [tx "Title"], tx "\n    "]]
    [ex "my-header" [] [tx "\n      中文App Title\n    "]] = true := by decide +kernel

/-- `test_svg_inside_strong`, hotmeal/src/diff.rs:2774. The namespace of the SVG elements is left out. -/
example : trips []
    [ex "p" [] [tx "Text with ", ex "strong" [] [tx "bold"], tx " word."]]
    [ex "p" [] [tx "Text with ", ex "strong" [] [ex "svg" [("width", "29"), ("height", "21")] [ex "circle" [] []]], tx
    " word."]] = true := by decide +kernel

/-- `test_opaque_roundtrip_deeply_nested`, hotmeal/src/diff.rs:3175. -/
example : trips [[ex "div" [] [ex "span" [] [tx "new text"], ex "span" [] [tx "extra"]]]]
    [ex "div" [("data-hotmeal-opaque", "")] [ex "div" [] [ex "span" [] [tx "old text"]]]]
    [ex "div" [("data-hotmeal-opaque", "")] [ex "div" [] [ex "span" [] [tx "new text"], ex "span" [] [tx "extra"]]]] = true := by decide +kernel

/-- `test_img_alt_attribute_preservation`, hotmeal/tests/test_debug_fuzzer_bug.rs:58. -/
example : trips []
    [ex "img" [] [], ex "img" [("src", ""), ("alt", "")] [], ex "img" [("src", "")] []]
    [ex "img" [("src", ""), ("alt", "")] [], ex "img" [("src", "")] []] = true := by decide +kernel

/-- `test_textarea_content`, hotmeal/tests/test_debug_fuzzer_bug.rs:93. -/
example : trips []
    [tx "\n$"]
    [ex "textarea" [] [tx "\n\n\n</body></html>"]] = true := by decide +kernel

/-- `test_text_to_s_element`, hotmeal/tests/test_debug_fuzzer_bug.rs:134. -/
example : trips []
    [tx "'"]
    [ex "s" [("=<", ""), ("body", "")] []] = true := by decide +kernel

/-! ## hotmeal/fuzz/tests/browser_tests.rs -/

/-- `test_move_ancestor_under_descendant_browser`, hotmeal/fuzz/tests/browser_tests.rs. -/
example : shows
    [ex "footer" [] [ex "div" [] [ex "span" [] [tx "content"]]]]
    [ex "div" [] [ex "span" [] [tx "content", ex "footer" [] []]]] = true := by decide +kernel

/-- `test_deeply_nested_footers_browser`, hotmeal/fuzz/tests/browser_tests.rs. -/
example : shows
    [ex "footer" [] [ex "footer" [] [ex "footer" [] [ex "footer" [] []]]]]
    [ex "footer" [] [ex "footer" [] [ex "footer" [] []]]] = true := by decide +kernel

/-- `test_simple_text_change_browser`, hotmeal/fuzz/tests/browser_tests.rs. -/
example : shows
    [ex "p" [] [tx "Hello"]]
    [ex "p" [] [tx "World"]] = true := by decide +kernel

/-- `test_add_element_browser`, hotmeal/fuzz/tests/browser_tests.rs. -/
example : shows
    [ex "div" [] []]
    [ex "div" [] [ex "p" [] [tx "New paragraph"]]] = true := by decide +kernel

/-- `test_remove_element_browser`, hotmeal/fuzz/tests/browser_tests.rs. -/
example : shows
    [ex "div" [] [ex "p" [] [tx "To be removed"]]]
    [ex "div" [] []] = true := by decide +kernel

/-! ## Tests about the kinds of patches, hotmeal/src/diff.rs -/

/-- `test_diff_text_change`, diff.rs:2046. -/
example : patchesSatisfy [ex "div" [] [tx "old"]] [ex "div" [] [tx "new"]]
    (fun ps => ps.any fun P => decide (P.sort = .text)) = true := by decide +kernel

/-- `test_diff_attr_change`, diff.rs:2064. -/
example : patchesSatisfy [ex "div" [("class", "foo")] []] [ex "div" [("class", "bar")] []]
    (fun ps => ps.any fun P => match P with
      | .updateProps _ cs => cs.any fun c => decide (c.name = .attr ⟨none, [], "class".toList⟩)
      | _ => false) = true := by decide +kernel

/-- `test_arena_dom_diff_add_element`, diff.rs:2347. -/
example : patchesSatisfy [ex "div" [] [tx "Content"]] [ex "div" [] [tx "Content"], ex "p" [] [tx "New paragraph"]]
    (fun ps => ps.any fun P => match P with | .insertElement .. => true | _ => false) = true := by decide +kernel

/-- An opaque element of the tests. -/
def opq (cs : List Html) : Html := ex "div" [("data-hotmeal-opaque", "")] cs

/-- `test_opaque_unchanged_no_patches`, diff.rs:2912. -/
example : patchesSatisfy [opq [ex "p" [] [tx "hello"]]] [opq [ex "p" [] [tx "hello"]]]
    (fun ps => ps.isEmpty) = true := by decide +kernel

/-- `test_opaque_changed_emits_opaque_changed`, diff.rs:2931. -/
example : patchesSatisfy [opq [ex "p" [] [tx "old"]]] [opq [ex "p" [] [tx "new"]]]
    (fun ps => decide (ps.countP Patch.isReport = 1) && ps.all fun P => match P with
      | .opaqueChanged _ c => decide (c = "<p>new</p>".toList)
      | .updateProps .. => true
      | _ => false) = true := by decide +kernel

/-- `test_opaque_with_normal_siblings`, diff.rs:2986. -/
example : patchesSatisfy [opq [ex "p" [] [tx "old"]], ex "span" [] [tx "before"]]
    [opq [ex "p" [] [tx "new"]], ex "span" [] [tx "after"]]
    (fun ps => decide (ps.countP Patch.isReport = 1 ∧ countSort .text ps = 1)) = true := by decide +kernel

/-- `test_opaque_deeply_nested_content`, diff.rs:3045. -/
example : patchesSatisfy
    [opq [ex "div" [("class", "wrapper")] [ex "ul" [] [ex "li" [] [tx "item 1"], ex "li" [] [tx "item 2"]]]]]
    [opq [ex "div" [("class", "wrapper")] [ex "ul" []
      [ex "li" [] [tx "item A"], ex "li" [] [tx "item B"], ex "li" [] [tx "item C"]]]]]
    (fun ps => decide (ps.countP Patch.isReport = 1) && ps.all fun P => match P with
      | .opaqueChanged .. => true
      | .updateProps .. => true
      | _ => false) = true := by decide +kernel

/-- `test_opaque_multiple_siblings`, diff.rs:3085. -/
example : patchesSatisfy [opq [ex "p" [] [tx "chart 1"]], opq [ex "p" [] [tx "chart 2"]]]
    [opq [ex "p" [] [tx "updated 1"]], opq [ex "p" [] [tx "updated 2"]]]
    (fun ps => decide (ps.countP Patch.isReport = 2)) = true := by decide +kernel

/-- `test_opaque_structural_replacement`, diff.rs:3111. -/
example : patchesSatisfy [opq [ex "pre" [("class", "mermaid")] [tx "graph TD; A-->B;"]]]
    [opq [ex "svg" [] [ex "rect" [] []]]]
    (fun ps => decide (ps.countP Patch.isReport = 1) && ps.any fun P => match P with
      | .opaqueChanged _ c => decide (c = "<svg><rect></rect></svg>".toList)
      | _ => false) = true := by decide +kernel

/-- `test_opaque_only_one_changed`, diff.rs:3148. -/
example : patchesSatisfy [opq [ex "p" [] [tx "same"]], opq [ex "p" [] [tx "old"]]]
    [opq [ex "p" [] [tx "same"]], opq [ex "p" [] [tx "new"]]]
    (fun ps => decide (ps.countP Patch.isReport = 1)) = true := by decide +kernel

/-- `test_move_parent_under_child_no_cycle`, diff.rs:2857: nodes 0 to 3 are `body`, `div_a`, `div_b`, `div_c`. -/
example : (let d : TData := ⟨.element [] .html, [], none⟩
    let A : Arena TData := (((⟨1, fun _ => none, fun _ => [], fun _ => d⟩ : Arena TData).addChild 0 d).1.addChild 1 d).1
      |>.addChild 2 d |>.1
    match Shadow.new A 0 with
    | .ok S => match S.moveToPosition 1 2 0 with
      | .ok (S, _) => decide (1 ∈ S.arena.children 2)
      | .error _ => false
    | .error _ => false) = true := by decide +kernel

/-! ## Hand-written patches, hotmeal/tests/apply_tests.rs -/

/-- `test_apply_set_text`. -/
example : after [ex "p" [] [tx "Hello"]] [.setText [0, 0, 0] "Goodbye".toList] =
    "<html><head></head><body><p>Goodbye</p></body></html>" := by decide +kernel

/-- `test_apply_set_attribute`. -/
example : after [ex "div" [] [tx "Content"]] [.setAttribute [0, 0] ⟨none, [], "class".toList⟩ "highlight".toList] =
    "<html><head></head><body><div class=\"highlight\">Content</div></body></html>" := by decide +kernel

/-- `test_apply_remove`. -/
example : after [ex "p" [] [tx "First"], ex "p" [] [tx "Second"]] [.remove [0, 1]] =
    "<html><head></head><body><p>First</p></body></html>" := by decide +kernel

/-- `test_apply_insert_element`. -/
example : after [ex "p" [] [tx "First"]] [.insertElement [0, 0] "p".toList [] [] (some 1)] =
    "<html><head></head><body><p></p></body></html>" := by decide +kernel

/-- `test_apply_insert_element_no_displacement`. -/
example : after [ex "p" [] [tx "First"]] [.insertElement [0, 1] "p".toList [] [] none] =
    "<html><head></head><body><p>First</p><p></p></body></html>" := by decide +kernel

/-- `test_apply_insert_element_with_children`. -/
example : after [ex "p" [] [tx "First"]] [.insertElement [0, 1] "p".toList [] [.text "Second".toList] none] =
    "<html><head></head><body><p>First</p><p>Second</p></body></html>" := by decide +kernel

/-- `test_apply_insert_element_with_attrs`. -/
example : after [ex "p" [] [tx "First"]]
      [.insertElement [0, 1] "p".toList [(⟨none, [], "class".toList⟩, "highlight".toList)] [.text "Second".toList]
        none] =
    "<html><head></head><body><p>First</p><p class=\"highlight\">Second</p></body></html>" := by decide +kernel

/-- `test_apply_insert_text`. -/
example : after [ex "p" [] [tx "First"]] [.insertText [0, 1] "Hello".toList none] =
    "<html><head></head><body><p>First</p>Hello</body></html>" := by decide +kernel

/-- `test_minimal_repro`, hotmeal/tests/test_debug_fuzzer_bug.rs:16. -/
example : after [ex "div" [] []] [.insertElement [0, 1] "p".toList [] [] none] ≠ "error" := by decide +kernel

/-! ## Serializer, hotmeal/src/dom.rs -/

/-- `test_to_html`. -/
example : after [ex "div" [] [tx "Hello"]] [] =
    "<html><head></head><body><div>Hello</div></body></html>" := by decide +kernel

/-- `test_to_html_escaping`. -/
example : after [ex "div" [] [tx "<script> & \"quotes\""]] [] =
    "<html><head></head><body><div>&lt;script> &amp; \"quotes\"</div></body></html>" := by decide +kernel

/-- `test_to_html_void_elements`. -/
example : after [ex "br" [] [], ex "img" [("src", "test.png")] []] [] =
    "<html><head></head><body><br><img src=\"test.png\"></body></html>" := by decide +kernel

/-- `test_script_content_not_escaped` and `test_style_content_not_escaped`. -/
example : after [ex "script" [] [tx "const x = () => { return 1 < 2; };"],
      ex "style" [] [tx ".foo > .bar { color: red; }"]] [] =
    "<html><head></head><body><script>const x = () => { return 1 < 2; };</script>" ++
      "<style>.foo > .bar { color: red; }</style></body></html>" := by decide +kernel

/-- `test_normal_text_still_escaped`. -/
example : after [ex "p" [] [tx "1 < 2 & 3 > 1"]] [] =
    "<html><head></head><body><p>1 &lt; 2 &amp; 3 > 1</p></body></html>" := by decide +kernel

/-- `test_has_doctype_prefix`. -/
example : hasDoctypePrefix "<!DOCTYPE html>".toList = true ∧ hasDoctypePrefix "   <!DoCtYpE html>".toList = true ∧
    hasDoctypePrefix "<html><body></body></html>".toList = false ∧
    hasDoctypePrefix "<!-- <!doctype html> -->".toList = false := by decide +kernel

/-! ## Trees, matching and edit scripts, cinereus -/

/-- `test_tree_basics`, tree.rs:577. -/
example : (let T := tree [(0, 0, "root"), (0, 1, "leaf"), (0, 2, "leaf")]
    T.childCount 0 = 2 ∧ T.position 1 = 0 ∧ T.position 2 = 1 ∧ T.parent 1 = some 0 ∧ T.height 0 = 1) := by
  decide +kernel

/-- `test_post_order`, tree.rs:591. -/
example : (tree [(0, 0, "root"), (0, 1, "node"), (1, 2, "leaf"), (1, 3, "leaf"), (0, 4, "leaf")]).postOrder =
    [2, 3, 1, 4, 0] := by decide +kernel

/-- `test_identical_trees`, matching.rs. -/
example : (let T := tree [(0, 100, "root"), (0, 1, "leaf"), (0, 2, "leaf")]
    (computeMatching T T dflt).pairs.length = 3) := by decide +kernel

/-- `test_partial_match`, matching.rs. -/
example : (computeMatching (tree [(0, 100, "root"), (0, 1, "leaf"), (0, 2, "leaf")])
    (tree [(0, 100, "root"), (0, 1, "leaf"), (0, 3, "leaf")]) dflt).getB 1 = some 1 := by decide +kernel

/-- `test_opaque_node_matched_but_children_not`, matching.rs. -/
example : (let TA := tree [(0, 100, "root"), (0, 10, "div"), (1, 1, "text"), (1, 2, "text")] [1]
    let TB := tree [(0, 200, "root"), (0, 20, "div"), (1, 3, "text"), (1, 4, "text")] [1]
    let M := computeMatching TA TB dflt
    M.containsA 0 = true ∧ M.getB 1 = some 1 ∧ M.containsA 2 = false ∧ M.containsA 3 = false ∧
      M.containsB 2 = false ∧ M.containsB 3 = false) := by decide +kernel

/-- `test_opaque_deeply_nested_children_not_matched`, matching.rs. -/
example : (let T := tree [(0, 100, "root"), (0, 10, "div"), (1, 5, "span"), (2, 1, "text")] [1]
    let M := computeMatching T T dflt
    M.containsA 1 = true ∧ M.containsA 2 = false ∧ M.containsA 3 = false ∧ M.containsB 2 = false ∧
      M.containsB 3 = false) := by decide +kernel

/-- `test_opaque_sibling_still_matched`, matching.rs. -/
example : (let T := tree [(0, 100, "root"), (0, 10, "div"), (1, 1, "text"), (0, 20, "span"), (3, 3, "text")] [1]
    let M := computeMatching T T dflt
    M.getB 3 = some 3 ∧ M.getB 4 = some 4) := by decide +kernel

/-- The edit script of two trees. -/
def edits (TA TB : DiffTree Nat) (cfg : Config := dflt) : List EditOp :=
  generateEditScript TA TB (computeMatching TA TB cfg)

/-- How many operations of a kind there are. -/
def count (k : PatchSort) (ops : List EditOp) : Nat := ops.countP fun op => decide (op.sort = k)

/-- `test_no_changes`, chawathe.rs:401. -/
example : (let T := tree [(0, 100, "root"), (0, 1, "leaf")]
    (edits T T).length = 0) := by decide +kernel

/-- `test_matched_nodes_different_hash_no_op`, chawathe.rs:416. -/
example : (edits (tree [(0, 100, "root"), (0, 1, "leaf")]) (tree [(0, 100, "root"), (0, 2, "leaf")])).length = 0 := by
  decide +kernel

/-- `test_insert`, chawathe.rs:439. -/
example : count .insert (edits (tree [(0, 100, "root")]) (tree [(0, 100, "root"), (0, 1, "leaf")])) = 1 := by
  decide +kernel

/-- `test_delete`, chawathe.rs:456. -/
example : count .remove (edits (tree [(0, 100, "root"), (0, 1, "leaf")]) (tree [(0, 100, "root")])) = 1 := by
  decide +kernel

/-- `test_swap_two_siblings`, chawathe.rs:473. -/
example : (let TA := tree [(0, 100, "root"), (0, 1, "leaf"), (0, 2, "leaf")]
    let TB := tree [(0, 200, "root"), (0, 2, "leaf"), (0, 1, "leaf")]
    let M := computeMatching TA TB Config.diff
    M.getB 1 = some 2 ∧ M.getB 2 = some 1 ∧
      ((edits TA TB Config.diff).filterMap fun op => match op with
        | .move a _ _ i => some (a, i)
        | _ => none).Perm [(1, 1), (2, 0)]) := by decide +kernel

/-- `test_properties_emit_update_property_ops`, chawathe.rs:776. The test has its own attributes. -/
example : (let TA := tree [(0, 0, "root"), (0, 1, "div")] [] [(1, [(⟨none, [], "id".toList⟩, "foo".toList)])]
    let TB := tree [(0, 0, "root"), (0, 2, "div")] []
      [(1, [(⟨none, [], "id".toList⟩, "bar".toList), (⟨none, [], "class".toList⟩, "container".toList)])]
    (computeMatching TA TB dflt).getB 1 = some 1 ∧
    (match edits TA TB with
      | [.updateProps 1 1 cs] => decide (cs =
          [⟨.attr ⟨none, [], "id".toList⟩, .different "bar".toList⟩,
            ⟨.attr ⟨none, [], "class".toList⟩, .different "container".toList⟩])
      | _ => false) = true) := by decide +kernel

/-- `test_properties_no_cross_matching`, chawathe.rs:868. -/
example : (match edits (tree [(0, 0, "root"), (0, 1, "div")])
      (tree [(0, 0, "root"), (0, 2, "div")] [] [(1, [(⟨none, [], "id".toList⟩, "myid".toList)])]) with
    | [.updateProps 1 1 [c]] => decide (c.key = .attr ⟨none, [], "id".toList⟩)
    | _ => false) = true := by decide +kernel

/-- `test_opaque_no_edits_for_children`, chawathe.rs. -/
example : (edits (tree [(0, 100, "root"), (0, 10, "div"), (1, 1, "text")] [1])
    (tree [(0, 200, "root"), (0, 20, "div"), (1, 2, "text")] [1])).length = 0 := by decide +kernel

/-- `test_opaque_deeply_nested_no_edits`, chawathe.rs. -/
example : (edits (tree [(0, 100, "root"), (0, 10, "div"), (1, 5, "span"), (2, 1, "text"), (2, 2, "text")] [1])
    (tree [(0, 200, "root"), (0, 20, "div"), (1, 6, "span"), (2, 3, "text")] [1])).length = 0 := by decide +kernel

/-- `test_opaque_sibling_still_edited`, chawathe.rs. -/
example : count .insert (edits (tree [(0, 100, "root"), (0, 10, "div"), (1, 1, "text"), (0, 20, "span")] [1])
    (tree [(0, 200, "root"), (0, 20, "div"), (1, 2, "text"), (0, 20, "span"), (0, 30, "p")] [1])) = 1 := by
  decide +kernel

/-- `test_opaque_identical_no_ops`, chawathe.rs. -/
example : (let T := tree [(0, 100, "root"), (0, 10, "div"), (1, 1, "text")] [1]
    (edits T T).length = 0) := by decide +kernel

/-! ## Server, hotmeal-server/src/lib.rs -/

/-- A diff that always has a patch. -/
def somePatch : Str → Str → Except Unit (List Patch) := fun _ _ => .ok [.remove [0, 0]]

/-- `cache_html_roundtrip`. -/
example : (Server.new.cacheHtml "/".toList "<p>hello</p>".toList).2 = none ∧
    ((Server.new.cacheHtml "/".toList "<p>hello</p>".toList).1.cacheHtml "/".toList "<p>world</p>".toList).2 =
      some "<p>hello</p>".toList := by decide +kernel

/-- `diff_route_no_cache_returns_reload`, `diff_route_unchanged_returns_none`, `diff_route_produces_patches`. -/
example :
    (match (Server.new.diffRoute somePatch "/new".toList "<p>hello</p>".toList).2 with
      | some .reload => true | _ => false) = true ∧
    (let S := (Server.new.cacheHtml "/".toList "<p>hello</p>".toList).1
    (match (S.diffRoute somePatch "/".toList "<p>hello</p>".toList).2 with | none => true | _ => false) = true ∧
    (match (S.diffRoute somePatch "/".toList "<p>world</p>".toList).2 with
      | some (.patches r ps) => decide (r = "/".toList ∧ ps.length = 1) | _ => false) = true) := by decide +kernel

/-- `diff_route_with_head_detects_head_change` and `diff_route_with_head_unchanged_diffs_body`. -/
example : (let S := (Server.new.cacheHtml "/".toList "<p>hello</p>".toList).1
    let S := (S.cacheHead "/".toList "a.css".toList).1
    (match (S.diffRouteWithHead somePatch "/".toList "<p>hello</p>".toList "b.css".toList).2 with
      | some (.headChanged r) => decide (r = "/".toList) | _ => false) = true ∧
    (match (S.diffRouteWithHead somePatch "/".toList "<p>world</p>".toList "a.css".toList).2 with
      | some (.patches ..) => true | _ => false) = true) := by decide +kernel

/-- `remove_route_works`. -/
example : (let S := (Server.new.cacheHtml "/a".toList "<p>a</p>".toList).1
    let S := (S.cacheHead "/a".toList "head-a".toList).1
    (S.removeRoute "/a".toList).2 = true ∧ ((S.removeRoute "/a".toList).1.removeRoute "/a".toList).2 = false) := by
  decide +kernel

/-- `inject_into_head_basic` and `inject_into_head_no_head_tag`. -/
example :
    injectIntoHead "<html><head><title>Test</title></head><body></body></html>".toList
        "<link rel=\"stylesheet\">".toList =
      "<html><head><link rel=\"stylesheet\"><title>Test</title></head><body></body></html>".toList ∧
    injectIntoHead "<html><body>hi</body></html>".toList "<style>body{}</style>".toList =
      "<style>body{}</style><html><body>hi</body></html>".toList := by decide +kernel

end Conformance
end Hotmeal

