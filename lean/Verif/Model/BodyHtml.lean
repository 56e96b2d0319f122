import Verif.Model.Mount
import Verif.Model.Json

set_option autoImplicit false

/-!
# The content of the body as a text (hotmeal-wasm/src/lib.rs)

The functions with which JavaScript sets and gets the content of the body, and the harness that the project uses to
compare what a browser shows after patches with what it should show (hotmeal-wasm/index.html and
hotmeal-wasm/tests/wasm.spec.ts).
-/

namespace Hotmeal
namespace BodyHtml

open Mount

/-- `Element.innerHTML = html`, used at lib.rs:930: the text is parsed as a fragment, all children of the element are
removed, and the parsed nodes are appended. `frag` is the fragment parser of the browser for a body, as a document whose
root has the parsed nodes as children. Simplification: the nodes are copied into the page instead of being moved. -/
def setInnerHtml (frag : Str → Document) (E : Arena NodeData) (n : Nat) (html : Str) : Res (Arena NodeData) :=
  let W := frag html
  ((W.arena.children W.root).map (cloneSubtree W.arena)).foldlM (fun A r => do
    let (A, c) ← r A
    A.append n c) (detachAll E (E.children n))

/-- `set_body_inner_html`, lib.rs:919-932. `doc` is the document node of the page. -/
def setBodyInnerHtml (frag : Str → Document) (E : Arena NodeData) (doc : Nat) (html : Str) : Res (Arena NodeData) := do
  let b ← resolveMountPoint E doc .body
  setInnerHtml frag E b html

/-- `get_body_inner_html`, lib.rs:905-917. Simplification: the browser is taken to write HTML as the library does; the
standard differs from that in that it writes U+00A0 as `&nbsp;`, and in some obsolete elements (`xmp`, `noframes`). -/
def getBodyInnerHtml (E : Arena NodeData) (doc : Nat) : Res Str := do
  let b ← resolveMountPoint E doc .body
  .ok (serializeInner E b)

/-- `apply_patches_json`, lib.rs:117-124, with `document.body` as in lib.rs:131-143. Errors are not told apart. -/
def applyPatchesJson (dom : WebDom) (E : Arena NodeData) (doc : Nat) (s : Str) : Option (Arena NodeData) :=
  match resolveMountPoint E doc .body with
  | .ok b => (Json.applyJson dom b E s).map Prod.snd
  | .error _ => none

/-- The page that a test makes of the content of a body, hotmeal-wasm/tests/wasm.spec.ts:302-303. -/
def wrapBody (content : Str) : Str := "<html><body>".toList ++ content ++ "</body></html>".toList

/-- `runTestCase`, hotmeal-wasm/index.html:52-67, up to the comparison: what the body shows in the end. -/
def runTestCase (dom : WebDom) (frag : Str → Document) (E : Arena NodeData) (doc : Nat) (old patches : Str) : Option Str :=
  match setBodyInnerHtml frag E doc old with
  | .error _ => none
  | .ok E => match applyPatchesJson dom E doc patches with
    | none => none
    | some E => match getBodyInnerHtml E doc with
      | .ok s => some s
      | .error _ => none

/-- A page that is taken from version to version of the content of its body by `diff_html` and `apply_patches_json`, as
in wasm.spec.ts:299-315, where there is one new version. `parse` is the parser behind `diff_html`. -/
def updates {H : Type} [DecidableEq H] (dom : WebDom) (hashNode : HKind → Option Str → List H → H) (parse : Str → Document)
    (doc : Nat) : Arena NodeData → Str → List Str → Option (Arena NodeData)
  | E, _, [] => some E
  | E, old, new :: rest =>
    match Json.diffHtml hashNode (parse (wrapBody old)) (parse (wrapBody new)) with
    | .error _ => none
    | .ok s => match applyPatchesJson dom E doc s with
      | none => none
      | some E => updates dom hashNode parse doc E new rest

end BodyHtml
end Hotmeal
